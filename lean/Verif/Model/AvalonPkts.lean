import Verif.Model.AvalonST

/-!
# Packetized Avalon-ST: `drivers/avalon.py:596-861`, `monitors/avalon.py:74-252`

Simplifications: the optional `error` signal, which the driver sets to 0 and the monitor does not read, is left out; an
optional signal that the bus lacks is present in `PkOut` but never written or read; logging is dropped.
-/

namespace CocotbBus
open Coro

/-- Signals driven by the source. -/
structure PkOut where
  valid : Logic
  sop : Logic
  eop : Logic
  data : LogicArray
  empty : LogicArray
  channel : LogicArray
  deriving DecidableEq, Repr

/-- Signals driven by others: the sink's ready and the resets (a monitor may have either, both or none,
monitors/__init__.py:189-196). -/
structure PkIn where
  ready : Logic
  resetN : Option LogicArray := none
  reset : Option LogicArray := none
  deriving DecidableEq, Repr

/-- The bus and `self.config` (drivers/avalon.py:599-627, monitors/avalon.py:84-130). `emptyW`, `channelW`: width of the
optional signal, if present. `readyLatency` is accepted (drivers/avalon.py:607, monitors/avalon.py:91) and no code reads it
("FIXME assumes readyLatency of 0", drivers/avalon.py:629-638). -/
structure PkCfg where
  width : Nat
  hasReady : Bool
  emptyW : Option Nat
  channelW : Option Nat
  bitsPerSymbol : Nat := 8
  highFirst : Bool := true
  maxChannel : Nat := 0
  invalidTimeout : Nat := 0
  reportChannel : Bool := false
  readyLatency : Nat := 0
  deriving DecidableEq, Repr

/-- `num_data_symbols > 1` (drivers/avalon.py:619-627, monitors/avalon.py:125-132): the quotient is not rounded. -/
def PkCfg.useEmpty (c : PkCfg) : Bool := c.width > c.bitsPerSymbol

/-- The checks in the constructors (drivers/avalon.py:619-664, monitors/avalon.py:110-149): `report_channel` is only an
argument of the monitor. A channel wider than 128 bits raises TypeError while the message is being formatted
(`%d` of the name). -/
def pkInit (c : PkCfg) (monitor : Bool) : Except PyErr Unit :=
  if monitor ∧ c.reportChannel ∧ c.channelW = none then .error .valueError
  else if c.useEmpty ∧ c.emptyW = none then .error .attributeError
  else match c.channelW with
    | none => .ok ()
    | some w =>
      if w > 128 then .error .typeError
      else if c.maxChannel > 2 ^ w - 1 then .error .attributeError
      else .ok ()

/-- `self.config["maxChannel"]` without a user setting (drivers/avalon.py:611-613, monitors/avalon.py:110-113). -/
def defaultMaxChannel (channelW : Option Nat) : Nat :=
  match channelW with
  | none => 0
  | some w => 2 ^ w - 1

/-- `self.bus.valid.value = 0`. -/
def pkLower (o : PkOut) : PkOut := { o with valid := .zero }

/-- `AvalonSTPkts._wait_ready` (drivers/avalon.py:669-679). -/
def pkWaitReady : M PkIn PkOut Unit := waitRO (fun i => .ok (i.ready == .one))

/-- The channel part (drivers/avalon.py:727-736). -/
def pkChannel (c : PkCfg) (channel : Option Int) : M PkIn PkOut Unit :=
  match c.channelW with
  | none => pure ()
  | some w =>
    match channel with
    | none => write (fun o => { o with channel := natToBits w 0 })
    | some ch =>
      if ch > c.maxChannel ∨ ch < 0 then raise (.assertion "channel")
      else write (fun o => { o with channel := natToBits w ch.toNat })

/-- Assignment to `empty` (drivers/avalon.py:749-750): cocotb rejects an integer that does not fit the signal. -/
def pkEmpty (c : PkCfg) (n : Nat) : M PkIn PkOut Unit :=
  if c.useEmpty then
    match c.emptyW with
    | none => raise .attributeError
    | some w => if n < 2 ^ w then write (fun o => { o with empty := natToBits w n }) else raise .overflowError
  else pure ()

/-- One iteration of `_send_string`'s loop after the clock edge (drivers/avalon.py:713-766): returns the remaining
string. -/
def pkBeat (c : PkCfg) (channel : Option Int) (first : Bool) (string : Bytes) (v : Valids) : M PkIn PkOut (Bytes × Valids) := do
  let busWidth := c.width / 8
  let v ← gapM pkLower v
  write (fun o => { o with valid := .one })
  pkChannel c channel
  write (fun o => { o with sop := Logic.ofBool first })
  let data := string.take (min string.length busWidth)
  let rest ← (if string.length ≤ busWidth then do
      write (fun o => { o with eop := .one })
      pkEmpty c (busWidth - string.length)
      pure []
    else pure (string.drop busWidth))
  let d ← ofExcept (createBinaryBytes data c.width c.highFirst)
  write (fun o => { o with data := d.bits })
  when c.hasReady pkWaitReady
  pure (rest, v)

/-- The defaults at the start of `_send_string` (drivers/avalon.py:694-705). -/
def pkDefaults (c : PkCfg) (o : PkOut) : PkOut :=
  { o with
    empty := if c.useEmpty then natToBits (c.emptyW.getD 0) 0 else o.empty
    sop := .zero, eop := .zero, valid := .zero
    channel := match c.channelW with
      | some w => natToBits w 0
      | none => o.channel }

/-- The cleanup at the end of `_send_string` (drivers/avalon.py:769-788). -/
def pkCleanup (c : PkCfg) (o : PkOut) : PkOut :=
  { valid := .zero, sop := .x, eop := .x
    data := List.replicate c.width .x
    empty := if c.useEmpty then List.replicate (c.emptyW.getD 0) .x else o.empty
    channel := match c.channelW with
      | some w => List.replicate w .x
      | none => o.channel }

/-- `AvalonSTPkts._send_string` (drivers/avalon.py:681-788). The first iteration of the loop is written out: `firstword`
is true exactly there. -/
def pkSend (c : PkCfg) (string : Bytes) (sync : Bool) (channel : Option Int) (v : Valids) : M PkIn PkOut Valids := do
  write (pkDefaults c)
  when (c.channelW.isNone && channel.isSome) (raise (.assertion "no channel signal"))
  let v ← (match string with
    | [] => pure v
    | _ => do
      when sync awaitEdge
      let x ← pkBeat c channel true string v
      loop (fun (x : Bytes × Valids) =>
        match x.1 with
        | [] => pure (.inr x.2)
        | _ => do
          awaitEdge
          let y ← pkBeat c channel false x.1 x.2
          pure (.inl y)) x)
  awaitEdge
  write (pkCleanup c)
  pure v

/-- A packet, whether to synchronise first, the channel. -/
structure PkItem where
  pkt : Bytes
  sync : Bool
  channel : Option Int := none
  deriving DecidableEq, Repr

/-- Several packets in succession. -/
def pkSendAll (c : PkCfg) : List PkItem → Valids → M PkIn PkOut Valids
  | [], v => pure v
  | p :: r, v => do
    let v ← pkSend c p.pkt p.sync p.channel v
    pkSendAll c r v

/-- A word of an iterable packet: an object with attributes named after signals (drivers/avalon.py:790-794). -/
structure PkWord where
  valid : Option Bool := none
  sop : Option Logic := none
  eop : Option Logic := none
  data : Option LogicArray := none
  empty : Option LogicArray := none
  channel : Option LogicArray := none
  deriving DecidableEq, Repr

/-- One word of `_send_iterable` after the clock edge (drivers/avalon.py:804-826). `self.bus.value = word` sets an
attribute named `value` on the Python object `self.bus`: no signal is written. -/
def pkWord (c : PkCfg) (w : PkWord) (v : Valids) : M PkIn PkOut Valids := do
  let v ← gapM pkLower v
  match w.valid with
  | none => write (fun o => { o with valid := .one })
  | some _ => pure ()
  when (w.valid.getD true && c.hasReady) pkWaitReady
  pure v

/-- The words of `_send_iterable` (drivers/avalon.py:798-826). -/
def pkWords (c : PkCfg) : List PkWord → Bool → Valids → M PkIn PkOut Valids
  | [], _, v => pure v
  | w :: r, sync, v => do
    when sync awaitEdge
    let v ← pkWord c w v
    pkWords c r true v

/-- `AvalonSTPkts._send_iterable` (drivers/avalon.py:790-829). -/
def pkSendWords (c : PkCfg) (words : List PkWord) (sync : Bool) (v : Valids) : M PkIn PkOut Valids := do
  let v ← pkWords c words sync v
  awaitEdge
  write (fun o => { o with valid := .zero })
  pure v

/-- The packet argument of `send()`. -/
inductive PkArg where
  | bytes (b : Bytes)
  | str (s : String)
  | words (l : List PkWord)

/-- `AvalonSTPkts._driver_send` (drivers/avalon.py:831-861): the channel is ignored for an iterable. -/
def pkDriverSend (c : PkCfg) (pkt : PkArg) (sync : Bool) (channel : Option Int) (v : Valids) : M PkIn PkOut Valids :=
  match pkt with
  | .bytes b => pkSend c b sync channel v
  | .str _ => raise .typeError
  | .words l => pkSendWords c l sync v

/-! ### The monitor -/

/-- Local variables of `_monitor_recv` (monitors/avalon.py:156-159). `emptyBound`: the local variable `empty` has been
assigned (it is read at line 215, assigned only at line 199). -/
structure PkState where
  pkt : Bytes := []
  inPkt : Bool := false
  invalidCount : Nat := 0
  channel : Option Nat := none
  emptyBound : Bool := false
  deriving DecidableEq, Repr

/-- What `_recv` is called with (monitors/avalon.py:237-240): the channel only if it is reported. -/
structure PkReport where
  data : Bytes
  channel : Option (Option Nat)
  deriving DecidableEq, Repr

/-- `valid()` (monitors/avalon.py:161-167). -/
def pkValid (c : PkCfg) (o : PkOut) (i : PkIn) : Bool :=
  if c.hasReady then o.valid == .one && i.ready == .one else o.valid == .one

/-- `is_resolvable` of what `create_binary` returns. -/
def BinVal.resolvable : BinVal → Bool
  | .logic l => l.isResolvable
  | .array v => isResolvable v

/-- The data of a beat that is not the last (monitors/avalon.py:191-195). -/
def pkBody (c : PkCfg) (o : PkOut) : Except PyErr Bytes := convertBinaryToBytes (pinValue o.data) c.highFirst

/-- The data of the last beat (monitors/avalon.py:196-220) and whether `empty` is now assigned. -/
def pkLast (c : PkCfg) (o : PkOut) (emptyBound : Bool) : Except PyErr (Bytes × Bool) :=
  let masked : Except PyErr (LogicArray × Bool) :=
    if c.useEmpty then
      match toUnsigned o.empty with
      | .error e => .error e
      | .ok 0 => .ok (o.data, emptyBound)
      | .ok n =>
        let e := n * c.bitsPerSymbol
        .ok (if c.highFirst then o.data.take (o.data.length - e) else o.data.drop e, true)
    else .ok (o.data, emptyBound)
  match masked with
  | .error e => .error e
  | .ok (value, bound) =>
    match createBinaryStr value value.length with
    | .error e => .error e
    | .ok vec =>
      if vec.resolvable then
        match convertBinaryToBytes vec c.highFirst with
        | .error e => .error e
        | .ok b => .ok (b, bound)
      else .error (if bound then .avalonProtocol "bad value" else .unboundLocal)

/-- The channel check (monitors/avalon.py:222-231). -/
def pkCheckChannel (c : PkCfg) (o : PkOut) (channel : Option Nat) : Except PyErr (Option Nat) :=
  match c.channelW with
  | none => .ok channel
  | some _ =>
    match toUnsigned o.channel with
    | .error e => .error e
    | .ok n =>
      match channel with
      | none => if n > c.maxChannel then .error (.avalonProtocol "channel too big") else .ok (some n)
      | some ch => if n ≠ ch then .error (.avalonProtocol "channel changed") else .ok (some ch)

/-- One iteration of the loop in `_monitor_recv` (monitors/avalon.py:169-252). -/
def pkStep (c : PkCfg) (st : PkState) (o : PkOut) (i : PkIn) : Except PyErr (PkState × Option PkReport) :=
  match inReset i.resetN i.reset with
  | .error e => .error e
  | .ok true => .ok (st, none)
  | .ok false =>
    if pkValid c o i then
      let st := { st with invalidCount := 0 }
      if o.sop = .one ∧ st.pkt ≠ [] then .error (.avalonProtocol "duplicate start-of-packet")
      else
        let st := if o.sop = .one then { st with pkt := [], inPkt := true } else st
        if st.inPkt = false then .error (.avalonProtocol "data outside of packet")
        else if o.eop ≠ .one then
          match pkBody c o with
          | .error e => .error e
          | .ok b =>
            match pkCheckChannel c o st.channel with
            | .error e => .error e
            | .ok ch => .ok ({ st with pkt := st.pkt ++ b, channel := ch }, none)
        else
          match pkLast c o st.emptyBound with
          | .error e => .error e
          | .ok (b, bound) =>
            match pkCheckChannel c o st.channel with
            | .error e => .error e
            | .ok ch =>
              .ok ({ st with pkt := [], inPkt := false, channel := none, emptyBound := bound },
                some ⟨st.pkt ++ b, if c.reportChannel then some ch else none⟩)
    else if st.inPkt then
      let n := st.invalidCount + 1
      if c.invalidTimeout ≠ 0 ∧ n ≥ c.invalidTimeout then .error (.avalonProtocol "timeout")
      else .ok ({ st with invalidCount := n }, none)
    else .ok (st, none)

/-- `_monitor_recv` on a trace: the transactions reported, and the state or the exception at the end. -/
def pkMonitor (c : PkCfg) : List (PkOut × PkIn) → PkState → List PkReport × Except PyErr PkState
  | [], st => ([], .ok st)
  | (o, i) :: r, st =>
    match pkStep c st o i with
    | .error e => ([], .error e)
    | .ok (st, rep) =>
      let (l, e) := pkMonitor c r st
      (rep.toList ++ l, e)

end CocotbBus
