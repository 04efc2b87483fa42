import Verif.Model.DriverBase
import Verif.Model.Compat
import Verif.Model.Monitor

/-!
# Avalon-ST without packets: `drivers/avalon.py:512-594`, `monitors/avalon.py:28-69`

Simplification: the driver and the DUT's `ready` are the only agents on the bus; values are bytes, integers or
bit strings.
-/

namespace CocotbBus
open Coro

/-- What may be given to `create_binary` (_compat.py:16-18). -/
inductive AvVal where
  | bytes (b : Bytes)
  | int (n : Nat)
  | str (s : LogicArray)
  deriving DecidableEq, Repr

/-- `create_binary` dispatching on the type (_compat.py:16-37). -/
def createBinary (v : AvVal) (bitCount : Nat) (bigEndian : Bool) : Except PyErr BinVal :=
  match v with
  | .bytes b => createBinaryBytes b bitCount bigEndian
  | .int n => createBinaryInt n bitCount
  | .str s => createBinaryStr s bitCount

/-- The value as it appears on the pins. -/
def BinVal.bits : BinVal → LogicArray
  | .logic l => [l]
  | .array v => v

/-- `handle.value` of a signal whose pins are `v`: a `Logic` for one bit, else a `LogicArray`. -/
def pinValue (v : LogicArray) : BinVal :=
  match v with
  | [l] => .logic l
  | _ => .array v

/-- Signals driven by the sink. -/
structure StIn where
  ready : Logic
  deriving DecidableEq, Repr

/-- Signals driven by the source. -/
structure StOut where
  valid : Logic
  data : LogicArray
  deriving DecidableEq, Repr

/-- `len(self.bus.data)`, `hasattr(self.bus, "ready")`, `config["firstSymbolInHighOrderBits"]`
(drivers/avalon.py:515-518, monitors/avalon.py:34-37). -/
structure StCfg where
  width : Nat
  hasReady : Bool
  highFirst : Bool := true
  deriving DecidableEq, Repr

/-- `self.bus.valid.value = 0`. -/
def lowerValid (o : StOut) : StOut := { o with valid := .zero }

/-- `AvalonST._wait_ready` (drivers/avalon.py:536-546). -/
def stWaitReady : M StIn StOut Unit := waitRO (fun i => .ok (i.ready == .one))

/-- `AvalonST._driver_send` (drivers/avalon.py:548-594). -/
def stSend (cfg : StCfg) (value : AvVal) (sync : Bool) (v : Valids) : M StIn StOut Valids := do
  write lowerValid
  when sync awaitEdge
  let v ← gapM lowerValid v
  write (fun o => { o with valid := .one })
  let d ← ofExcept (createBinary value cfg.width false)
  write (fun o => { o with data := d.bits })
  when cfg.hasReady stWaitReady
  awaitEdge
  write (fun _ => { valid := .zero, data := List.replicate cfg.width .x })
  pure v

/-- Several sends in succession, each with its own `sync` flag, by the queue thread or awaited one after the
other. -/
def stSendAll (cfg : StCfg) : List (AvVal × Bool) → Valids → M StIn StOut Valids
  | [], v => pure v
  | (x, sync) :: r, v => do
    let v ← stSend cfg x sync v
    stSendAll cfg r v

/-- `valid()` (monitors/avalon.py:53-59): what the monitor takes as a transfer. -/
def stValid (cfg : StCfg) (o : StOut) (i : StIn) : Bool :=
  if cfg.hasReady then o.valid == .one && i.ready == .one else o.valid == .one

/-- `AvalonST._monitor_recv` (monitors/avalon.py:47-69) over the values sampled at successive rising edges:
the transactions passed to `_recv` and the exception that ended the coroutine, if any. -/
def stMonitor (cfg : StCfg) : List (StOut × StIn) → List Bytes × Option PyErr
  | [] => ([], none)
  | (o, i) :: r =>
    if stValid cfg o i then
      match convertBinaryToBytes (pinValue o.data) cfg.highFirst with
      | .error e => ([], some e)
      | .ok b => let (l, e) := stMonitor cfg r; (b :: l, e)
    else stMonitor cfg r

end CocotbBus
