import Verif.Model.AxiMaster

/-!
# `AXI4Slave`: `drivers/amba.py:687-880`

`strict`: awaiting ReadOnly in the ReadOnly phase raises (cocotb 2.x) or is allowed (1.x). Writing a signal in the ReadOnly phase raises
in both. `int(self.bus.AWADDR)` (of the handle, allowed in 1.x only) is taken as `int` of the value. The memory is an `array("B")` or
`bytearray`; slices are Python's. Optional signals are never used by the code.
-/

namespace CocotbBus
open Coro

/-- Signals driven by the master. -/
structure AsIn where
  awvalid : Logic := .zero
  awaddr : LogicArray := []
  awlen : LogicArray := []
  awsize : LogicArray := []
  awburst : LogicArray := []
  awprot : LogicArray := []
  wvalid : Logic := .zero
  wdata : LogicArray := []
  arvalid : Logic := .zero
  araddr : LogicArray := []
  arlen : LogicArray := []
  arsize : LogicArray := []
  arburst : LogicArray := []
  arprot : LogicArray := []
  rready : Logic := .zero
  deriving DecidableEq, Repr

/-- Driven by `_write_data`, and the memory. -/
structure AsWOut where
  wready : Logic
  mem : Bytes
  deriving DecidableEq, Repr

/-- Driven by `_read_data`, and the memory. -/
structure AsROut where
  rvalid : Logic
  rdata : LogicArray
  rlast : Logic
  mem : Bytes
  deriving DecidableEq, Repr

/-- The slave: width of RDATA, `big_endian`, and the version of cocotb. -/
structure AsCfg where
  dataW : Nat
  bigEndian : Bool := false
  strict : Bool := true
  deriving DecidableEq, Repr

/-- `_size_to_bytes_in_beat` (drivers/amba.py:771-774). -/
def asBytesInBeat (size : Nat) : Option Nat := if size < 7 then some (2 ^ size) else none

/-- `memory[a:b] = new` for `a ≤ b`. -/
def pySetSlice (mem : Bytes) (a b : Nat) (new : Bytes) : Bytes := mem.take a ++ new ++ mem.drop b

/-- The five fields of an address (drivers/amba.py:789-793, 838-842), then the size of a beat: formatting the debug message raises
TypeError if there is none (drivers/amba.py:799-807, 848-856). The address, the number of beats and the bytes of a beat. -/
def asFields (addr len size burst prot : LogicArray) : Except PyErr (Nat × Nat × Nat) := do
  let a ← toUnsigned addr
  let l ← toUnsigned len
  let s ← toUnsigned size
  let _ ← toUnsigned burst
  let _ ← toUnsigned prot
  match asBytesInBeat s with
  | none => .error .typeError
  | some b => .ok (a, l + 1, b)

/-- Waiting for a write address (drivers/amba.py:780-786). -/
def asAwBody (c : AsCfg) (_ : Unit) : M AsIn AsWOut (Unit ⊕ Unit) := do
  write (fun o => { o with wready := .zero })
  readOnly c.strict
  let i ← inp
  if i.awvalid = .one then do
    write (fun o => { o with wready := .one })
    pure (.inr ())
  else do
    awaitEdge
    pure (.inl ())

/-- One turn of the loop over the write data (drivers/amba.py:813-825); the state is `burst_count`. -/
def asWBody (c : AsCfg) (addr length bytes : Nat) (count : Nat) : M AsIn AsWOut (Nat ⊕ Unit) := do
  let i ← inp
  if i.wvalid = .one then do
    let d := length - count
    let b ← ofExcept (convertBinaryToBytes (pinValue i.wdata) c.bigEndian)
    setPy (fun o => { o with mem := pySetSlice o.mem (addr + d * bytes) (addr + (d + 1) * bytes) b })
    if count - 1 = 0 then pure (.inr ())
    else do
      awaitEdge
      pure (.inl (count - 1))
  else do
    awaitEdge
    pure (.inl count)

/-- One turn of the outer loop of `_write_data` (drivers/amba.py:779-825). -/
def asWriteOne (c : AsCfg) : M AsIn AsWOut Unit := do
  loop (asAwBody c) ()
  readOnly c.strict
  let i ← inp
  let f ← ofExcept (asFields i.awaddr i.awlen i.awsize i.awburst i.awprot)
  awaitEdge
  loop (asWBody c f.1 f.2.1 f.2.2) f.2.1

/-- `AXI4Slave._write_data` (drivers/amba.py:776-825). -/
def asWrite (c : AsCfg) : M AsIn AsWOut Unit :=
  loop (fun (_ : Unit) => do
    asWriteOne c
    pure (.inl ())) ()

/-- Waiting for a read address (drivers/amba.py:831-835). -/
def asArBody (c : AsCfg) (_ : Unit) : M AsIn AsROut (Unit ⊕ Unit) := do
  readOnly c.strict
  let i ← inp
  if i.arvalid = .one then pure (.inr ())
  else do
    awaitEdge
    pure (.inl ())

/-- Putting a beat on the bus if RREADY is high (drivers/amba.py:865-875). -/
def asRData (c : AsCfg) (addr length bytes count : Nat) : M AsIn AsROut Unit := do
  let d := length - count
  let o ← getOut
  let v ← ofExcept (createBinaryBytes (pySlice o.mem (addr + d * bytes) (addr + (d + 1) * bytes)) (bytes * 8) c.bigEndian)
  write (fun o => { o with rdata := v.bits })
  when (count == 1) (write (fun o => { o with rlast := .one }))

/-- After the beat (drivers/amba.py:876-880). -/
def asRNext (count : Nat) : M AsIn AsROut (Nat ⊕ Unit) := do
  awaitEdge
  write (fun o => { o with rlast := .zero })
  if count - 1 = 0 then pure (.inr ()) else pure (.inl (count - 1))

/-- One turn of the loop over the read data (drivers/amba.py:862-880); the state is `burst_count`. -/
def asRBody (c : AsCfg) (addr length bytes : Nat) (count : Nat) : M AsIn AsROut (Nat ⊕ Unit) := do
  write (fun o => { o with rvalid := .one })
  readOnly c.strict
  let i ← inp
  (if i.rready = .one then asRData c addr length bytes count else pure ()) >>= fun _ => asRNext count

/-- One turn of the outer loop of `_read_data` (drivers/amba.py:830-880). -/
def asReadOne (c : AsCfg) : M AsIn AsROut Unit := do
  loop (asArBody c) ()
  readOnly c.strict
  let i ← inp
  let f ← ofExcept (asFields i.araddr i.arlen i.arsize i.arburst i.arprot)
  awaitEdge
  loop (asRBody c f.1 f.2.1 f.2.2) f.2.1

/-- `AXI4Slave._read_data` (drivers/amba.py:827-880). -/
def asRead (c : AsCfg) : M AsIn AsROut Unit :=
  loop (fun (_ : Unit) => do
    asReadOne c
    pure (.inl ())) ()

/-- `AXI4Slave.__init__` (drivers/amba.py:757-762): the signals driven by the two coroutines, when they start. -/
def asInitR (o : AsROut) (memory : Bytes) : AsROut := { o with rvalid := .zero, rlast := .zero, mem := memory }

end CocotbBus
