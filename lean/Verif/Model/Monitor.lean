import Verif.Model.Compat

/-!
# `src/cocotb_bus/monitors/__init__.py`

Simplifications: a callback is a function on an arbitrary world state `σ` that may raise; callbacks do
not register further callbacks while they run (those that do: `Model/SharedObj.lean`); logging is dropped. The user's `event` is modelled by
the list of values it was set with.
-/

namespace CocotbBus

/-- A callback: effect on the world and possibly an exception. -/
abbrev Callback (T σ : Type) := T → σ → σ × Option PyErr

/-- A `Monitor` object (monitors/__init__.py:52-74). -/
structure Monitor (T σ : Type) where
  received : Nat := 0                     -- stats.received_transactions
  queue : List T := []                    -- _recvQ
  callbacks : List (Callback T σ) := []
  hasEvent : Bool := false                -- event is not None
  eventSets : List T := []                -- successive `event.set(transaction)` calls
  waitData : Option T := none             -- _wait_event_data

/-- The loop of monitors/__init__.py:138-139: an exception ends it. -/
def runCallbacks {T σ : Type} : List (Callback T σ) → T → σ → σ × Option PyErr
  | [], _, w => (w, none)
  | c :: r, t, w =>
    match c t w with
    | (w', some e) => (w', some e)
    | (w', none) => runCallbacks r t w'

/-- `Monitor.add_callback` (monitors/__init__.py:88-97). -/
def Monitor.addCallback {T σ : Type} (m : Monitor T σ) (c : Callback T σ) : Monitor T σ :=
  { m with callbacks := m.callbacks ++ [c] }

/-- `Monitor._recv` (monitors/__init__.py:132-154). The set/clear of `_wait_event` is in
`WaitSys.recv`. -/
def Monitor.recv {T σ : Type} (m : Monitor T σ) (t : T) (w : σ) : Monitor T σ × σ × Option PyErr :=
  let m := { m with received := m.received + 1 }
  match runCallbacks m.callbacks t w with
  | (w, some e) => (m, w, some e)
  | (w, none) =>
    let m := if m.callbacks.isEmpty then { m with queue := m.queue ++ [t] } else m
    let m := if m.hasEvent then { m with eventSets := m.eventSets ++ [t] } else m
    ({ m with waitData := some t }, w, none)

/-- `Monitor.__len__` (monitors/__init__.py:82-83). -/
def Monitor.len {T σ : Type} (m : Monitor T σ) : Nat := m.queue.length

/-- `Monitor.__getitem__` (monitors/__init__.py:85-86) for a non-negative index. -/
def Monitor.getItem {T σ : Type} (m : Monitor T σ) (i : Nat) : Except PyErr T :=
  match m.queue[i]? with
  | some t => .ok t
  | none => .error .indexError

/-! ### `wait_for_recv` and the scheduler -/

/-- A task calling `wait_for_recv` (monitors/__init__.py:99-118). -/
inductive WaitTask (T : Type) where
  | idle
  | waiting (timeout : Bool)      -- at the `await`, with or without a running Timer
  | woken                         -- `_wait_event` fired; scheduled, has not run yet
  | timedOut                      -- the Timer fired first; scheduled, has not run yet
  | done (r : Option T)           -- returned
  deriving DecidableEq, Repr

/-- Scheduler-level state. -/
structure WaitSys (T : Type) where
  data : Option T
  tasks : Nat → WaitTask T

/-- What can happen, in any order. -/
inductive WaitOp (T : Type) where
  | start (w : Nat) (timeout : Option Nat)   -- task `w` calls wait_for_recv(timeout)
  | recv (t : T)                             -- the monitor calls _recv
  | timer (w : Nat)                          -- the Timer of task `w` fires
  | resume (w : Nat)                         -- the scheduler runs task `w`
  deriving DecidableEq, Repr

/-- Update one task. -/
def WaitSys.setTask {T : Type} (s : WaitSys T) (w : Nat) (x : WaitTask T) : WaitSys T :=
  { s with tasks := fun w' => if w' = w then x else s.tasks w' }

/-- monitors/__init__.py:151-154: `set()` schedules all waiters, then the data is stored, then
`clear()`. All of it is one atomic step. -/
def WaitSys.recv {T : Type} (s : WaitSys T) (t : T) : WaitSys T where
  data := some t
  tasks := fun w => match s.tasks w with
    | .waiting _ => .woken
    | x => x

/-- One step; `none` when the operation is not possible. `if timeout:` (monitors/__init__.py:110)
is false for `None` and for 0. -/
def WaitSys.step {T : Type} (s : WaitSys T) : WaitOp T → Option (WaitSys T)
  | .start w timeout =>
    match s.tasks w with
    | .idle =>
      match timeout with
      | some (_ + 1) => some (s.setTask w (.waiting true))
      | _ => some (s.setTask w (.waiting false))
    | _ => none
  | .recv t => some (s.recv t)
  | .timer w =>
    match s.tasks w with
    | .waiting true => some (s.setTask w .timedOut)
    | _ => none
  | .resume w =>
    match s.tasks w with
    | .woken => some (s.setTask w (.done s.data))
    | .timedOut => some (s.setTask w (.done none))
    | _ => none

/-- A history. -/
def WaitSys.run {T : Type} (s : WaitSys T) : List (WaitOp T) → Option (WaitSys T)
  | [] => some s
  | o :: r => match s.step o with
    | some s' => s'.run r
    | none => none

/-- Initially nobody waits. -/
def WaitSys.init (T : Type) : WaitSys T := ⟨none, fun _ => .idle⟩

/-! ### `BusMonitor.in_reset` -/

/-- `BusMonitor.in_reset` (monitors/__init__.py:189-196). `int()` of a value that is not resolvable
raises ValueError. -/
def inReset (resetN reset : Option LogicArray) : Except PyErr Bool :=
  match resetN with
  | some v => (toUnsigned v).map (fun n => ! (n != 0))
  | none =>
    match reset with
    | some v => (toUnsigned v).map (fun n => n != 0)
    | none => .ok false

end CocotbBus
