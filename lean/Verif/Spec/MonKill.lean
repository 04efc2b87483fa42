import Verif.Model.MonKill
import Verif.Model.AvalonST
import Verif.Model.AvalonPkts
import Verif.Model.Xgmii

/-! # Spec: what a monitor that looks at the bus at every edge has received -/

namespace CocotbBus.Spec
open CocotbBus

variable {S I T σ : Type}

/-- The transactions that a coroutine reports at successive edges, until it raises. -/
def decoded (f : S → I → Except PyErr (S × List T)) : S → List I → List T
  | _, [] => []
  | st, i :: r =>
    match f st i with
    | .error _ => []
    | .ok (st', ts) => ts ++ decoded f st' r

/-- The values of the bus at the clock edges of a history. -/
def edgesOf : List (MonEv I T σ) → List I
  | [] => []
  | .edge i :: r => i :: edgesOf r
  | _ :: r => edgesOf r

/-- The part of a history before the first `kill()`. -/
def untilKill : List (MonEv I T σ) → List (MonEv I T σ)
  | [] => []
  | .kill :: _ => []
  | e :: r => e :: untilKill r

/-- No callback is added. -/
def NoNewCallbacks (evs : List (MonEv I T σ)) : Prop := ∀ e ∈ evs, ∀ c, e ≠ .addCallback c

/-- The effects on the world of calling each of the callbacks with each of the transactions. -/
def allCalled (cs : List (Callback T σ)) (ts : List T) (w : σ) : σ := ts.foldl (fun w t => cs.foldl (fun w c => (c t w).1) w) w

/-- What becomes of a list of transactions: those with which the callbacks were called, those with which all of them returned, the effects on
the world and the exception, if one raised. -/
structure Calls (T σ : Type) where
  started : List T
  finished : List T
  world : σ
  raised : Option PyErr

/-- Calling the callbacks with one transaction, until one raises. -/
def callEach : List (Callback T σ) → T → σ → σ × Option PyErr
  | [], _, w => (w, none)
  | c :: cs, t, w => if (c t w).2 = none then callEach cs t (c t w).1 else c t w

/-- Calling the callbacks with one transaction after the other, until one raises. -/
def callsUntil (cs : List (Callback T σ)) : List T → σ → Calls T σ
  | [], w => ⟨[], [], w, none⟩
  | t :: ts, w =>
    if (callEach cs t w).2 = none then
      let x := callsUntil cs ts (callEach cs t w).1
      ⟨t :: x.started, t :: x.finished, x.world, x.raised⟩
    else ⟨[t], [], (callEach cs t w).1, (callEach cs t w).2⟩

/-- A monitor as its users see it: statistics, the queue, what its event was set with. -/
structure Seen (T : Type) where
  received : Nat
  queue : List T
  eventSets : List T
  deriving DecidableEq, Repr

def MonObj.seen (m : MonObj S T σ) : Seen T := ⟨m.mon.received, m.mon.queue, m.mon.eventSets⟩

/-- One edge of the Avalon-ST monitor. -/
def stEdge (c : StCfg) (_ : Unit) (r : StOut × StIn) : Except PyErr (Unit × List Bytes) :=
  match stMonitor c [r] with
  | (l, none) => .ok ((), l)
  | (_, some e) => .error e

/-- One edge of the monitor for packets. -/
def pkEdge (c : PkCfg) (st : PkState) (r : PkOut × PkIn) : Except PyErr (PkState × List PkReport) :=
  (pkStep c st r.1 r.2).map (fun x => (x.1, x.2.toList))

/-- The packet that is reported; the other events are errors that are logged. -/
def xgPacket : XgEvent → Option Bytes
  | .recv p => some p
  | _ => none

/-- One edge of the XGMII monitor. -/
def xgEdge (c : XgCfg) (crc : Bytes → Nat) (st : XgState) (v : LogicArray) : Except PyErr (XgState × List Bytes) :=
  (xgStep c crc st v).map (fun x => (x.1, x.2.filterMap xgPacket))

end CocotbBus.Spec
