import Verif.Model.Axi
import Verif.Model.AvalonMM

/-!
# AXI4 and AXI4-Lite masters in time: `drivers/amba.py:34-48, 51-147, 195-232, 285-314, 357-406, 476-583, 589-684`

A transaction on its own: the five locks (drivers/amba.py:143-147) are free. Concurrent transactions are in `Model/AxiQueue.lean`.
BREADY and RREADY are set to 1 by the constructor (drivers/amba.py:111-112) and not changed by this class; they are read, so
they are among the inputs (another task may throttle them).
-/

namespace CocotbBus
open Coro

/-- Signals not driven by the coroutines of the master. -/
structure AxIn where
  awready : Logic := .zero
  wready : Logic := .zero
  bvalid : Logic := .zero
  bready : Logic := .one
  bresp : LogicArray := [.zero, .zero]
  arready : Logic := .zero
  rvalid : Logic := .zero
  rready : Logic := .one
  rdata : LogicArray := []
  rresp : LogicArray := [.zero, .zero]
  rlast : Logic := .zero
  deriving DecidableEq, Repr

/-- An address channel (AW or AR). -/
structure AddrOut where
  valid : Logic
  addr : LogicArray
  burst : LogicArray
  len : LogicArray
  size : LogicArray
  deriving DecidableEq, Repr

/-- The write data channel. -/
structure WOut where
  valid : Logic
  data : LogicArray
  strb : LogicArray
  last : Logic
  deriving DecidableEq, Repr

/-- Signals and widths (drivers/amba.py:57-100, 592-612). AXI4-Lite has no AxBURST, AxLEN, AxSIZE, WLAST and RLAST. -/
structure AxCfg where
  addrW : Nat
  dataBytes : Nat
  lenW : Nat := 8
  sizeW : Nat := 3
  burstW : Nat := 2
  full : Bool := true
  hasWlast : Bool := true
  deriving DecidableEq, Repr

/-- AXI4-Lite. -/
def AxCfg.lite (addrW dataBytes : Nat) : AxCfg := { addrW, dataBytes, full := false, hasWlast := false }

/-- Setting the signals of an address channel (drivers/amba.py:211-223, 491-501). AxSIZE is `size.bit_length() - 1`.
Simplification: a read sets ARBURST after ARLEN and ARSIZE, which only matters if one of them does not fit. -/
def setAddr (c : AxCfg) (address length size : Nat) (burst : AxiBurst) : M AxIn AddrOut Unit := do
  writeInt c.addrW address (fun v o => { o with addr := v })
  write (fun o => { o with valid := .one })
  when c.full (do
    writeInt c.burstW burst.code (fun v o => { o with burst := v })
    writeInt c.lenW (length - 1) (fun v o => { o with len := v })
    writeInt c.sizeW (bitLength size - 1) (fun v o => { o with size := v }))

/-- Waiting for the address to be accepted (drivers/amba.py:225-232, 503-510). -/
def addrHandshake (ready : AxIn → Logic) : M AxIn AddrOut Unit := do
  waitRO (fun i => .ok (ready i == .one))
  awaitEdge
  write (fun o => { o with valid := .zero })

/-- `_send_write_address` (drivers/amba.py:195-232). `ClockCycles(clk, 0)` does not wait. -/
def sendWriteAddress (c : AxCfg) (address length : Nat) (burst : AxiBurst) (size delay : Nat) (sync : Bool) : M AxIn AddrOut Unit := do
  when sync awaitEdge
  edges delay
  setAddr c address length size burst
  addrHandshake (·.awready)

/-- Waiting for a data beat to be accepted (drivers/amba.py:308-311): WREADY is sampled at the edge. -/
def wAccept : M AxIn WOut Unit :=
  loop (fun (_ : Unit) => do
    awaitEdge
    let i ← inp
    pure (if i.wready = .one then .inr () else .inl ())) ()

/-- The beats of `_send_write_data` (drivers/amba.py:289-314). -/
def sendBeats (c : AxCfg) (delay : Nat) : List (Nat × Nat) → M AxIn WOut Unit
  | [] => pure ()
  | (word, strobe) :: r => do
    edges delay
    write (fun o => { o with valid := .one })
    writeInt (8 * c.dataBytes) word (fun v o => { o with data := v })
    writeInt c.dataBytes strobe (fun v o => { o with strb := v })
    when c.hasWlast (write (fun o => { o with last := if r.isEmpty then .one else .zero }))
    wAccept
    when r.isEmpty (write (fun o => { o with valid := .zero }))
    sendBeats c delay r

/-- `_send_write_data` (drivers/amba.py:234-314). -/
def sendWriteData (c : AxCfg) (address : Nat) (data : List Nat) (burst : AxiBurst) (size delay : Nat) (byteEnable : List (Option Nat))
    (sync : Bool) : M AxIn WOut Unit := do
  let beats ← ofExcept (axiWriteBeats c.dataBytes size address burst data byteEnable)
  when sync awaitEdge
  sendBeats c delay beats

/-- The common records of two tasks; one that has ended keeps its last values (`lo`, `lp`). -/
def joinTrace {I O P : Type} : List (O × I) → O → List (P × I) → P → List ((O × P) × I)
  | [], lo, u, _ => u.map (fun q => ((lo, q.1), q.2))
  | (o, i) :: t, lo, u, lp => ((o, (u.head?.map Prod.fst).getD lp), i) :: joinTrace t lo u.tail lp

/-- The later of two simulation states. -/
def joinSim {I O P : Type} (s : Sim I O) (s' : Sim I P) : Sim I (O × P) :=
  if s.rest.length ≤ s'.rest.length then ⟨s.phase, (s.out, s'.out), s.prev, s.cur, s.rest⟩
  else ⟨s'.phase, (s.out, s'.out), s'.prev, s'.cur, s'.rest⟩

/-- How the wait for two tasks ends. -/
def joinEnd {I O P : Type} : End I O Unit → End I P Unit → End I (O × P) Unit
  | .err e s1, e2 => .err e (joinSim s1 e2.sim)
  | e1, .err e s2 => .err e (joinSim e1.sim s2)
  | .ok _ s1, .ok _ s2 => .ok () (joinSim s1 s2)
  | e1, e2 => .blocked (joinSim e1.sim e2.sim)

/-- `await Combine(start_soon(x), start_soon(y))` (drivers/amba.py:379) for tasks driving different signals. If one of them raises so
does the `await`, while the other goes on; simplification: it is then reported after the other has ended or got stuck as well. -/
def combine {I O P : Type} (x : M I O Unit) (y : M I P Unit) : M I (O × P) Unit := fun s =>
  let r := x ⟨s.phase, s.out.1, s.prev, s.cur, s.rest⟩
  let r' := y ⟨s.phase, s.out.2, s.prev, s.cur, s.rest⟩
  (joinTrace r.1 r.2.sim.out r'.1 r'.2.sim.out, joinEnd r.2 r'.2)

/-- `AXIxRESP(int(v))` (drivers/amba.py:34-38, 389, 529). -/
def axiResp (v : LogicArray) : Except PyErr Nat := do
  if isResolvable v then
    if bitsToNat v < 4 then .ok (bitsToNat v) else .error .valueError
  else .error .valueError

/-- Waiting for the response (drivers/amba.py:381-391). -/
def bLoop {O : Type} : M AxIn O Nat :=
  loop (fun (_ : Unit) => do
    readOnly
    let i ← inp
    if i.bvalid = .one ∧ i.bready = .one then do
      let r ← ofExcept (axiResp i.bresp)
      pure (.inr r)
    else do
      awaitEdge
      pure (.inl ())) ()

/-- `AXI4Master.write` after the checks (drivers/amba.py:371-406). -/
def axiWriteRun (c : AxCfg) (address : Nat) (value : List Nat) (size : Nat) (burst : AxiBurst) (byteEnable : List (Option Nat))
    (addressLatency dataLatency : Nat) (sync : Bool) : M AxIn (AddrOut × WOut) Unit := do
  combine (sendWriteAddress c address value.length burst size addressLatency sync)
    (sendWriteData c address value burst size dataLatency byteEnable sync)
  let result ← bLoop
  awaitEdge
  when (result ≠ 0) (raise (.axiProtocol result))

/-- The three checks of a request (drivers/amba.py:363-369, 476-482): the size of a beat. -/
def axiChecks (c : AxCfg) (address : Nat) (length : Int) (size : Option Int) (burst : AxiBurst) : Except PyErr Nat := do
  let sz ← axiSize size c.dataBytes
  axiCheckLength length burst
  axiCheck4k address burst sz length.toNat
  pure sz

/-- `AXI4Master.write` (drivers/amba.py:316-406). A value or byte enable that is not a sequence is made a one-element one before. -/
def axiWrite (c : AxCfg) (address : Nat) (value : List Nat) (size : Option Int) (burst : AxiBurst) (byteEnable : List (Option Nat))
    (addressLatency dataLatency : Nat) (sync : Bool) : M AxIn (AddrOut × WOut) Unit := do
  let sz ← ofExcept (axiChecks c address value.length size burst)
  axiWriteRun c address value sz burst byteEnable addressLatency dataLatency sync

/-- What the read loop has collected: data, responses, `byte_offset`. -/
structure RState where
  data : List LogicArray
  resp : List Nat
  offset : Nat
  deriving DecidableEq, Repr

/-- The two nested loops over the read data (drivers/amba.py:512-542), flattened. -/
def rBody (c : AxCfg) (size : Nat) (burst : AxiBurst) (st : RState) : M AxIn AddrOut (RState ⊕ RState) := do
  readOnly
  let i ← inp
  if i.rvalid = .one ∧ i.rready = .one then do
    let w ← ofExcept (shiftAndMask i.rdata size st.offset)
    let r ← ofExcept (axiResp i.rresp)
    let st' : RState := ⟨st.data ++ [w], st.resp ++ [r], axiNextOffset c.dataBytes size burst st.offset⟩
    if c.full = false ∨ i.rlast = .one then pure (.inr st')
    else do
      awaitEdge
      pure (.inl st')
  else do
    awaitEdge
    pure (.inl st)

/-- What `read` does with the beats (drivers/amba.py:544-583): with `return_rresp` pairs, else the data. -/
def axiFinish (address length size : Nat) (burst : AxiBurst) (returnRresp : Bool) (st : RState) :
    Except PyErr (List LogicArray ⊕ List (LogicArray × Nat)) :=
  if st.data.length ≠ length then .error .axiReadBurstLengthMismatch
  else do
    let data ← axiReadWords size address burst st.data
    if returnRresp then pure (.inr (data.zip st.resp))
    else match st.resp.find? (fun r => r != 0) with
    | some r => .error (.axiProtocol r)
    | none => pure (.inl data)

/-- The address phase of a read (drivers/amba.py:487-510). -/
def sendReadAddress (c : AxCfg) (address length : Nat) (burst : AxiBurst) (size : Nat) (sync : Bool) : M AxIn AddrOut Unit := do
  when sync awaitEdge
  setAddr c address length size burst
  addrHandshake (·.arready)

/-- `AXI4Master.read` after the checks (drivers/amba.py:484-583). -/
def axiReadRun (c : AxCfg) (address length size : Nat) (burst : AxiBurst) (returnRresp sync : Bool) :
    M AxIn AddrOut (List LogicArray ⊕ List (LogicArray × Nat)) := do
  sendReadAddress c address length burst size sync
  let st ← loop (rBody c size burst) ⟨[], [], address % c.dataBytes / size * size⟩
  awaitEdge
  ofExcept (axiFinish address length size burst returnRresp st)

/-- `AXI4Master.read` (drivers/amba.py:408-583). -/
def axiRead (c : AxCfg) (address : Nat) (length : Int) (size : Option Int) (burst : AxiBurst) (returnRresp sync : Bool) :
    M AxIn AddrOut (List LogicArray ⊕ List (LogicArray × Nat)) := do
  let sz ← ofExcept (axiChecks c address length size burst)
  axiReadRun c address length.toNat sz burst returnRresp sync

/-- `AXI4LiteMaster.write` (drivers/amba.py:614-659); a sequence is `.inr`. -/
def liteWrite (c : AxCfg) (address : Nat) (value : Nat ⊕ List Nat) (byteEnable : Option Nat) (addressLatency dataLatency : Nat)
    (sync : Bool) : M AxIn (AddrOut × WOut) LogicArray :=
  match value with
  | .inr _ => raise .valueError
  | .inl v => do
    axiWrite c address [v] none .incr [byteEnable] addressLatency dataLatency sync
    ofExcept (createBinaryInt 0 2 >>= fun v => .ok v.bits)

/-- `ret[0]` (drivers/amba.py:684). -/
def liteFirst : List LogicArray ⊕ List (LogicArray × Nat) → M AxIn AddrOut LogicArray
  | .inl (d :: _) => pure d
  | _ => raise .indexError

/-- `AXI4LiteMaster.read` (drivers/amba.py:661-684). -/
def liteRead (c : AxCfg) (address : Nat) (sync : Bool) : M AxIn AddrOut LogicArray := do
  let data ← axiRead c address 1 none .incr false sync
  liteFirst data

end CocotbBus
