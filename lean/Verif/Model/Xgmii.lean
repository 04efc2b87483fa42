import Verif.Model.AvalonMM

/-!
# XGMII driver and monitor: `drivers/xgmii.py`, `monitors/xgmii.py`

A lane is a byte and its control bit. `zlib.crc32` is an arbitrary function `crc`. Logging at debug and info level and `hexdump` are
left out. `Ether(payload)` (scapy, outside `/repo`) is left out: the monitor reports the payload bytes.
-/

namespace CocotbBus
open Coro

/-- a byte and its control bit -/
abbrev Lane := Byte × Bool

/-- `_XGMII_IDLE`, `_XGMII_START`, `_XGMII_TERMINATE` (drivers/xgmii.py:18-20, monitors/xgmii.py:24-26). -/
def xgIdle : Byte := 0x07#8
def xgStart : Byte := 0xFB#8
def xgTerminate : Byte := 0xFD#8

/-- `_PREAMBLE_SFD` (drivers/xgmii.py:25, monitors/xgmii.py:28). -/
def preambleSfd : Bytes := [0x55#8, 0x55#8, 0x55#8, 0x55#8, 0x55#8, 0x55#8, 0xd5#8]

/-- `len(signal)`, `interleaved`, and whether the name `create_binary` exists in drivers/xgmii.py. It does not (`imported = false` is
the code as it is); `imported = true` is the module with the missing import added. -/
structure XgCfg where
  width : Nat
  interleaved : Bool
  imported : Bool
  deriving DecidableEq, Repr

/-- `len(signal) // 9` (drivers/xgmii.py:115, monitors/xgmii.py:60). -/
def XgCfg.nbytes (c : XgCfg) : Nat := c.width / 9

/-! ### Driver -/

/-- The signal and `_XGMIIBus._integer`. -/
structure XgOut where
  signal : LogicArray
  integer : Nat
  deriving DecidableEq, Repr

/-- `_XGMIIBus.__setitem__` (drivers/xgmii.py:60-76). -/
def xgSetItem (c : XgCfg) (index : Nat) (byte : Byte) (ctrl : Bool) (integer : Nat) : Except PyErr Nat :=
  if index ≥ c.nbytes then .error .indexError
  else if c.interleaved then .ok (integer ||| byte.toNat <<< (index * 9) ||| ctrl.toNat <<< (9 * index + 8))
  else .ok (integer ||| byte.toNat <<< (index * 8) ||| ctrl.toNat <<< (c.nbytes * 8 + index))

/-- `self.bus[index] = (byte, ctrl)`. -/
def xgSet (c : XgCfg) (index : Nat) (byte : Byte) (ctrl : Bool) : M Unit XgOut Unit := do
  let o ← getOut
  let n ← ofExcept (xgSetItem c index byte ctrl o.integer)
  setPy (fun o => { o with integer := n })

/-- `_XGMIIBus.value` (drivers/xgmii.py:78-87): `create_binary` is not imported in this module. -/
def xgValue (c : XgCfg) : M Unit XgOut BinVal := do
  if !c.imported then raise .nameError
  let o ← getOut
  let v ← ofExcept (createBinaryInt o.integer (c.nbytes * 9))
  setPy (fun o => { o with integer := 0 })
  pure v

/-- `self.signal.value = self.bus.value`: cocotb refuses a value whose length is not that of the signal. -/
def xgDrive (c : XgCfg) : M Unit XgOut Unit := do
  match ← xgValue c with
  | .logic _ => raise .valueError
  | .array v => if v.length = c.width then write (fun o => { o with signal := v }) else raise .valueError

/-- `for i in l: f(i)`. -/
def xgFor : List Nat → (Nat → M Unit XgOut Unit) → M Unit XgOut Unit
  | [], _ => pure ()
  | i :: l, f => do
    f i
    xgFor l f

/-- `XGMII.idle` (drivers/xgmii.py:138-142). -/
def xgIdleBus (c : XgCfg) : M Unit XgOut Unit := do
  xgFor (List.range c.nbytes) (fun i => xgSet c i xgIdle true)
  xgDrive c

/-- `XGMII.terminate` (drivers/xgmii.py:144-154). -/
def xgTerm (c : XgCfg) (index : Nat) : M Unit XgOut Unit := do
  xgSet c index xgTerminate true
  when (index + 1 < c.nbytes) (xgFor (List.range' (index + 1) (c.nbytes - (index + 1))) (fun rem => xgSet c rem xgIdle true))

/-- `XGMII.__init__` (drivers/xgmii.py:96-117): the driver's effect on the signal. -/
def xgInit (c : XgCfg) : M Unit XgOut Unit := do
  setPy (fun o => { o with integer := 0 })
  xgIdleBus c

/-- `XGMII.layer1` (drivers/xgmii.py:119-136). -/
def layer1 (crc : Bytes → Nat) (packet : Bytes) : Bytes :=
  let packet := if packet.length < 60 then packet ++ List.replicate (60 - packet.length) 0#8 else packet
  preambleSfd ++ packet ++ natToBytesLE 4 (crc packet % 2 ^ 32)

/-- `self.bus[i] = (pkt[k], False)`. -/
def xgData (c : XgCfg) (i : Nat) (pkt : Bytes) (k : Nat) : M Unit XgOut Unit :=
  match pkt[k]? with
  | none => raise .indexError
  | some b => xgSet c i b false

/-- The inner `for` loop (drivers/xgmii.py:183-189) from lane `i` on, `k` lanes left; returns `done`. -/
def xgFill (c : XgCfg) (pkt : Bytes) : (k i : Nat) → M Unit XgOut Bool
  | 0, _ => pure false
  | k + 1, i =>
    if i = pkt.length then do
      xgTerm c i
      pure true
    else do
      xgData c i pkt i
      xgFill c pkt k (i + 1)

/-- One turn of the `while` loop (drivers/xgmii.py:182-193); the state is `pkt` and `done`. -/
def xgBody (c : XgCfg) (st : Bytes × Bool) : M Unit XgOut ((Bytes × Bool) ⊕ Bool) :=
  if st.1 = [] then pure (.inr st.2)
  else do
    let fin ← xgFill c st.1 c.nbytes 0
    xgDrive c
    awaitEdge
    if fin then pure (.inl ([], true)) else pure (.inl (st.1.drop c.nbytes, st.2))

/-- `XGMII._driver_send` (drivers/xgmii.py:156-202). -/
def xgSend (c : XgCfg) (crc : Bytes → Nat) (packet : Bytes) (sync : Bool) : M Unit XgOut Unit := do
  let pkt := layer1 crc packet
  when sync awaitEdge
  xgSet c 0 xgStart true
  xgFor (List.range' 1 (c.nbytes - 1)) (fun i => xgData c i pkt (i - 1))
  xgDrive c
  awaitEdge
  let done ← loop (xgBody c) (pkt.drop (c.nbytes - 1), false)
  when (!done) (do
    xgTerm c 0
    xgDrive c
    awaitEdge)
  xgIdleBus c
  awaitEdge

/-- A sequence of sends (drivers/__init__.py:193-210); `sync` is true for the first packet after the queue was empty. -/
def xgSendAll (c : XgCfg) (crc : Bytes → Nat) : List (Bytes × Bool) → M Unit XgOut Unit
  | [] => pure ()
  | (p, sync) :: r => do
    xgSend c crc p sync
    xgSendAll c crc r

/-! ### Monitor -/

/-- `XGMII._get_bytes` (monitors/xgmii.py:64-85): the lanes of a value of the signal. -/
def xgLanes (c : XgCfg) (v : LogicArray) : Except PyErr (List Lane) :=
  match toUnsigned v with
  | .error e => .error e
  | .ok value =>
    let byteShift := if c.interleaved then 9 else 8
    let ctrlBase := if c.interleaved then 8 else 8 * c.nbytes
    let ctrlInc := if c.interleaved then 9 else 1
    .ok ((List.range c.nbytes).map fun i =>
      (BitVec.ofNat 8 ((value >>> (i * byteShift)) &&& 0xFF), (value &&& (1 <<< (ctrlBase + i * ctrlInc))) != 0))

/-- `XGMII._add_payload` (monitors/xgmii.py:87-99): more to come?, the new `_pkt`, was an error logged? -/
def xgAddPayload : List Lane → Bytes → Bool × Bytes × Bool
  | [], pkt => (true, pkt, false)
  | (b, ctrl) :: l, pkt =>
    if ctrl then
      if b ≠ xgTerminate then (false, [], true) else (false, pkt, false)
    else xgAddPayload l (pkt ++ [b])

/-- What the monitor does that can be observed: an error is logged, or a packet is reported. -/
inductive XgEvent where
  | control            -- "Got control character in XGMII payload"
  | runt               -- "Received a runt frame!"
  | noData             -- "No data to extract"
  | preamble           -- "Got a frame with unknown preamble/SFD"
  | badCrc             -- "Incorrect CRC on received packet"
  | recv (payload : Bytes)
  deriving DecidableEq, Repr

/-- The end of a frame (monitors/xgmii.py:124-159). -/
def xgFinish (crc : Bytes → Nat) (pkt : Bytes) : List XgEvent :=
  if pkt = [] then []
  else
    (if pkt.length < 64 + 7 then [.runt] else []) ++
    if pkt.length < 12 then [.noData]
    else
      let payload := (pkt.drop 7).take (pkt.length - 7 - 4)
      if pkt.take 7 ≠ preambleSfd then [.preamble]
      else (if pkt.drop (pkt.length - 4) ≠ natToBytesLE 4 (crc payload % 2 ^ 32) then [.badCrc] else []) ++ [.recv payload]

/-- Where the monitor is: waiting for a start (`none`), or inside a frame with `_pkt`. -/
abbrev XgState := Option Bytes

/-- The lanes after a START, if the word has one (monitors/xgmii.py:109-118). -/
def xgOpen (c : XgCfg) (lanes : List Lane) : Except PyErr (Option (List Lane)) :=
  match lanes[0]? with
  | none => .error .indexError
  | some l0 =>
    if l0 = (xgStart, true) then .ok (some (lanes.drop 1))
    else if c.nbytes = 8 then
      match lanes[4]? with
      | none => .error .indexError
      | some l4 => if l4 = (xgStart, true) then .ok (some (lanes.drop 5)) else .ok none
    else .ok none

/-- Add the lanes of one word to the frame (monitors/xgmii.py:112-114 and 120-122, and 124-159 when the frame ends). -/
def xgAdd (crc : Bytes → Nat) (lanes : List Lane) (pkt : Bytes) : XgState × List XgEvent :=
  match xgAddPayload lanes pkt with
  | (true, pkt', _) => (some pkt', [])
  | (false, pkt', err) => (none, (if err then [.control] else []) ++ xgFinish crc pkt')

/-- One clock edge of `XGMII._monitor_recv` (monitors/xgmii.py:101-159). -/
def xgStep (c : XgCfg) (crc : Bytes → Nat) (st : XgState) (v : LogicArray) : Except PyErr (XgState × List XgEvent) :=
  match xgLanes c v with
  | .error e => .error e
  | .ok lanes =>
    match st with
    | some pkt => .ok (xgAdd crc lanes pkt)
    | none =>
      match xgOpen c lanes with
      | .error e => .error e
      | .ok none => .ok (none, [])
      | .ok (some l) => .ok (xgAdd crc l [])

/-- The monitor on the values of the signal at successive clock edges: what it does, and the state or the exception it ends with. -/
def xgMonitor (c : XgCfg) (crc : Bytes → Nat) : List LogicArray → XgState → List XgEvent × Except PyErr XgState
  | [], st => ([], .ok st)
  | v :: r, st =>
    match xgStep c crc st v with
    | .error e => ([], .error e)
    | .ok (st', ev) =>
      let (ev', e) := xgMonitor c crc r st'
      (ev ++ ev', e)

end CocotbBus
