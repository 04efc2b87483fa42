import Verif.Model.Monitor

/-!
# `Monitor.kill`

A monitor together with its receiving coroutine. The coroutine of every monitor of the package looks at the bus at each clock edge, may report
transactions then and may raise; `f` is what it does at one edge (the monitors of the package: `Spec/MonKill.lean`). Simplification: a callback does not
call `kill` itself (a coroutine that kills itself is cocotb's matter).
-/

namespace CocotbBus

/-- `_thread` (monitors/__init__.py:74-80). -/
inductive MonThread (S : Type) where
  | running (st : S)
  | failed (e : PyErr)       -- the coroutine has raised
  | none                     -- `_thread` is None
  deriving DecidableEq, Repr

/-- A monitor, the tasks in `wait_for_recv`, its coroutine and the world in which callbacks have their effects. -/
structure MonObj (S T σ : Type) where
  mon : Monitor T σ
  wait : WaitSys T
  thread : MonThread S
  world : σ

/-- What happens to a monitor, in any order. -/
inductive MonEv (I T σ : Type) where
  | edge (i : I)                                 -- a clock edge, with the values of the bus
  | kill                                         -- `kill()` (monitors/__init__.py:76-80)
  | addCallback (c : Callback T σ)               -- `add_callback` (monitors/__init__.py:88-97)
  | start (w : Nat) (timeout : Option Nat)       -- task `w` calls `wait_for_recv(timeout)`
  | timer (w : Nat)                              -- its timeout passes
  | resume (w : Nat)                             -- it is run again

/-- The coroutine reports transactions one after the other with `_recv` (monitors/__init__.py:132-154); an exception of a callback ends it, before
tasks in `wait_for_recv` are woken. -/
def MonObj.deliver {S T σ : Type} (m : MonObj S T σ) : List T → MonObj S T σ
  | [] => m
  | t :: r =>
    match m.mon.recv t m.world with
    | (mon, world, some e) => { m with mon := mon, world := world, thread := .failed e }
    | (mon, world, none) => MonObj.deliver { m with mon := mon, world := world, wait := m.wait.recv t } r

/-- A step of the tasks in `wait_for_recv`; one that is not possible changes nothing. -/
def MonObj.waitStep {S T σ : Type} (m : MonObj S T σ) (o : WaitOp T) : MonObj S T σ :=
  match m.wait.step o with
  | some wait => { m with wait := wait }
  | none => m

/-- One event. -/
def MonObj.step {S I T σ : Type} (f : S → I → Except PyErr (S × List T)) (m : MonObj S T σ) : MonEv I T σ → MonObj S T σ
  | .edge i =>
    match m.thread with
    | .running st =>
      match f st i with
      | .error e => { m with thread := .failed e }
      | .ok (st', ts) => { m with thread := .running st' }.deliver ts
    | _ => m
  | .kill => { m with thread := .none }
  | .addCallback c => { m with mon := m.mon.addCallback c }
  | .start w timeout => m.waitStep (.start w timeout)
  | .timer w => m.waitStep (.timer w)
  | .resume w => m.waitStep (.resume w)

/-- A history. -/
def MonObj.run {S I T σ : Type} (f : S → I → Except PyErr (S × List T)) (m : MonObj S T σ) (evs : List (MonEv I T σ)) : MonObj S T σ :=
  evs.foldl (MonObj.step f) m

/-- A new monitor (monitors/__init__.py:52-74), with the callback and the event of the constructor, its coroutine in the state `st`. -/
def MonObj.new {S T σ : Type} (callback : Option (Callback T σ)) (event : Bool) (st : S) (world : σ) : MonObj S T σ :=
  { mon := { callbacks := callback.toList, hasEvent := event }, wait := WaitSys.init T, thread := .running st, world := world }

end CocotbBus
