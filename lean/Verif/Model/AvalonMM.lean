import Verif.Model.Coro
import Verif.Model.Compat

/-!
# Avalon-MM master: `drivers/avalon.py:29-197`

Simplifications: a `Lock` held by somebody else is not released while the operation waits (concurrent callers are the
subject of `Model/Driver.lean` and `Model/MmTasks.lean`); addresses and values are natural numbers; readdata exists where read does and writedata where
write does.
-/

namespace CocotbBus
open Coro

/-- Signals driven by the slave. -/
structure MmIn where
  waitrequest : Logic := .zero
  readdatavalid : Logic := .zero
  readdata : LogicArray := []
  deriving DecidableEq, Repr

/-- Signals driven by the master, and `self.busy`. -/
structure MmOut where
  address : LogicArray
  writedata : LogicArray
  byteenable : LogicArray
  read : Logic
  write : Logic
  cs : Logic
  busy : Bool
  deriving DecidableEq, Repr

/-- Which signals there are and how wide they are (drivers/avalon.py:40-50). -/
structure MmCfg where
  addrW : Nat
  dataW : Nat
  beW : Option Nat := none
  hasRead : Bool := true
  hasWrite : Bool := true
  hasWait : Bool := true
  hasRdv : Bool := true
  hasCs : Bool := false
  deriving DecidableEq, Repr

/-- `signal.value = n` for an integer: cocotb rejects one that does not fit. -/
def writeInt {I O : Type} (w n : Nat) (f : LogicArray → O → O) : M I O Unit :=
  if n < 2 ^ w then write (f (natToBits w n)) else raise .overflowError

/-- `AvalonMM.__init__` (drivers/avalon.py:52-76): the signals after construction. -/
def mmInit (c : MmCfg) (o : MmOut) : MmOut :=
  { address := List.replicate c.addrW .x
    read := if c.hasRead then .zero else o.read
    write := if c.hasWrite then .zero else o.write
    writedata := if c.hasWrite then List.replicate c.dataW .x else o.writedata
    byteenable := match c.beW with
      | some w => natToBits w 0
      | none => o.byteenable
    cs := if c.hasCs then .zero else o.cs
    busy := false }

/-- `_acquire_lock` (drivers/__init__.py:92-96) by the only caller: with the lock taken it waits for ever. -/
def mmAcquire : M MmIn MmOut Unit := do
  if (← getOut).busy then hang
  setPy (fun o => { o with busy := true })

/-- `_release_lock` (drivers/__init__.py:98-100). -/
def mmRelease : M MmIn MmOut Unit := setPy (fun o => { o with busy := false })

/-- Byte enables and chip select of a request (drivers/avalon.py:121-124, 179-182). -/
def mmSelect (c : MmCfg) (o : MmOut) : MmOut :=
  { o with
    byteenable := match c.beW with
      | some w => List.replicate w .one
      | none => o.byteenable
    cs := if c.hasCs then .one else o.cs }

/-- Byte enables, chip select and address after a request (drivers/avalon.py:133-137, 191-195). -/
def mmDeselect (c : MmCfg) (o : MmOut) : MmOut :=
  { o with
    byteenable := match c.beW with
      | some w => natToBits w 0
      | none => o.byteenable
    cs := if c.hasCs then .zero else o.cs
    address := List.replicate c.addrW .x }

/-- `AvalonMaster.read` (drivers/avalon.py:93-155). -/
def mmRead (c : MmCfg) (address : Nat) (sync : Bool) : M MmIn MmOut LogicArray := do
  when (!c.hasRead) (raise (.assertion "write-only"))
  mmAcquire
  when sync awaitEdge
  writeInt c.addrW address (fun v o => { o with address := v })
  write (fun o => { o with read := .one })
  write (mmSelect c)
  when c.hasWait (waitN (fun i => i.waitrequest))
  awaitEdge
  write (fun o => { o with read := .zero })
  write (mmDeselect c)
  if c.hasRdv then
    loop (fun (_ : Unit) => do
      readOnly
      let i ← inp
      if (← ofExcept (intOf i.readdatavalid)) = 0 then do
        awaitEdge
        pure (.inl ())
      else pure (.inr ())) ()
  else readOnly
  let i ← inp
  mmRelease
  pure i.readdata

/-- `AvalonMaster.write` (drivers/avalon.py:157-197). -/
def mmWrite (c : MmCfg) (address value : Nat) : M MmIn MmOut Unit := do
  when (!c.hasWrite) (raise (.assertion "read-only"))
  mmAcquire
  awaitEdge
  writeInt c.addrW address (fun v o => { o with address := v })
  writeInt c.dataW value (fun v o => { o with writedata := v })
  write (fun o => { o with write := .one })
  write (mmSelect c)
  when c.hasWait (waitN (fun i => i.waitrequest))
  awaitEdge
  write (fun o => { o with write := .zero })
  write (mmDeselect c)
  write (fun o => { o with writedata := List.replicate c.dataW .x })
  mmRelease

end CocotbBus
