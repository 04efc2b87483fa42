import Verif.Model.Base

/-!
# `src/cocotb_bus/drivers/__init__.py`: the send queue and the busy lock

The sending coroutine, the callers of `append`/`clear`/`kill`/`send` and the scheduler are interleaved
arbitrarily: an execution is a list of operations, each operation being what happens between two points
at which control returns to the scheduler. `_driver_send` is a black box that stays in flight until it
returns or raises. Simplifications: `kwargs` are part of the transaction; a callback either returns
or raises and does not itself call the driver (callbacks that do: `Model/DriverCb.lean`).
-/

namespace CocotbBus

/-- An entry of `_sendQ` (drivers/__init__.py:129). `hasEvent`/`hasCb`: event, callback is not `None`. -/
structure Item (T : Type) where
  txn : T
  hasEvent : Bool
  hasCb : Bool
  deriving DecidableEq, Repr

/-- Where the sending coroutine `_thread` is (drivers/__init__.py:193-210). -/
inductive Thread (T : Type) where
  | notStarted                          -- `start_soon`, first step not yet run (line 90)
  | waiting                             -- blocked in `_pending.wait()` (line 198)
  | woken                               -- `_pending` was set, resumption scheduled
  | sending (it : Item T) (sync : Bool) -- inside `await self._driver_send` (lines 207, 185)
  | dead (e : PyErr)                    -- ended by an exception
  | killed                              -- `kill()` (lines 102-106)
  deriving DecidableEq, Repr

/-- Observable events of the driver. -/
inductive DEv (T : Type) where
  | idle                                -- the coroutine found the queue empty (line 196)
  | start (it : Item T) (sync : Bool)   -- `_driver_send(transaction, sync=...)` is called
  | event (it : Item T)                 -- `event.set()` (line 189)
  | callback (it : Item T)              -- `callback(transaction)` (line 191)
  deriving DecidableEq, Repr

/-- State of a `Driver` (drivers/__init__.py:78-90). `direct`: transactions of blocking `send()` calls whose
`_driver_send` is in flight; `log` is the history of observable events. -/
structure Drv (T : Type) where
  queue : List (Item T)
  pending : Bool
  thread : Thread T
  direct : List T
  log : List (DEv T)
  deriving DecidableEq, Repr

/-- `Driver.__init__` (drivers/__init__.py:78-90). -/
def Drv.init {T : Type} : Drv T := ⟨[], false, .notStarted, [], []⟩

/-- Operations. -/
inductive DOp (T : Type) where
  | append (it : Item T)      -- `append` (lines 108-130)
  | clear                     -- `clear` (lines 132-134)
  | kill                      -- `kill` (lines 102-106)
  | run                       -- the scheduler runs the sending coroutine
  | sendDone                  -- `_driver_send` of the coroutine returns, the callback (if any) returns
  | sendRaise (e : PyErr)     -- `_driver_send` of the coroutine raises
  | callbackRaise (e : PyErr) -- `_driver_send` returns and the callback raises
  | send (t : T)              -- a caller calls the blocking `send` (lines 136-147)
  | sendReturn (i : Nat)      -- the `i`-th blocking `send` in flight returns
  deriving DecidableEq, Repr

variable {T : Type}

/-- `await self._pending.wait()` (drivers/__init__.py:198): waiting for an event that is set only lets the scheduler run. -/
def Drv.waitPending (s : Drv T) : Drv T := { s with thread := if s.pending then .woken else .waiting }

/-- Outer `while` from its top (drivers/__init__.py:194-210) up to the next suspension point. -/
def Drv.outer (s : Drv T) : Drv T :=
  match s.queue with
  | [] => ({ s with pending := false, log := s.log ++ [.idle] } : Drv T).waitPending
  | it :: q => { s with queue := q, thread := .sending it true, log := s.log ++ [.start it true] }

/-- Inner `while` after a completed send (drivers/__init__.py:204-210); `synchronised` is now true. -/
def Drv.inner (s : Drv T) : Drv T :=
  match s.queue with
  | [] => s.outer
  | it :: q => { s with queue := q, thread := .sending it false, log := s.log ++ [.start it false] }

/-- Completion part of `_send` (drivers/__init__.py:187-191): the notifications of one item. -/
def notify (it : Item T) : List (DEv T) :=
  (if it.hasEvent then [.event it] else []) ++ (if it.hasCb then [.callback it] else [])

/-- One operation; `none` if it is not possible in this state. -/
def Drv.step (s : Drv T) : DOp T → Option (Drv T)
  | .append it =>
    some { s with queue := s.queue ++ [it], pending := true,
                  thread := match s.thread with
                    | .waiting => .woken
                    | t => t }
  | .clear => some { s with queue := [] }
  | .kill =>
    some { s with thread := match s.thread with
                    | .dead e => .dead e
                    | _ => .killed }
  | .run =>
    match s.thread with
    | .notStarted => some s.outer
    | .woken => some s.outer
    | _ => none
  | .sendDone =>
    match s.thread with
    | .sending it _ => some ({ s with log := s.log ++ notify it }).inner
    | _ => none
  | .sendRaise e =>
    match s.thread with
    | .sending _ _ => some { s with thread := .dead e }
    | _ => none
  | .callbackRaise e =>
    match s.thread with
    | .sending it _ => if it.hasCb then some { s with log := s.log ++ notify it, thread := .dead e } else none
    | _ => none
  | .send t => some { s with direct := s.direct ++ [t] }
  | .sendReturn i => if i < s.direct.length then some { s with direct := s.direct.eraseIdx i } else none

/-- A history of operations. -/
def Drv.run (s : Drv T) : List (DOp T) → Option (Drv T)
  | [] => some s
  | o :: r =>
    match s.step o with
    | none => none
    | some s' => s'.run r

/-! ### The busy lock (drivers/__init__.py:82-83, 92-100) -/

/-- A task using the lock. -/
inductive LockTask where
  | idle
  | waiting     -- in `busy_event.wait()` (line 94)
  | woken       -- the event was set, resumption scheduled
  | holding     -- `_acquire_lock` returned
  deriving DecidableEq, Repr

/-- `busy`, whether `busy_event` is set, and the tasks. -/
structure Lock where
  busy : Bool
  eventSet : Bool
  tasks : Nat → LockTask

/-- Initial state (drivers/__init__.py:82-83). -/
def Lock.init : Lock := ⟨false, false, fun _ => .idle⟩

inductive LockOp where
  | acquire (t : Nat)   -- task `t` calls `_acquire_lock`
  | resume (t : Nat)    -- the scheduler resumes task `t`
  | release (t : Nat)   -- task `t` calls `_release_lock`
  deriving DecidableEq, Repr

/-- Change the state of one task. -/
def Lock.setTask (l : Lock) (t : Nat) (x : LockTask) : Nat → LockTask := fun u => if u = t then x else l.tasks u

/-- One operation. `acquire`/`resume`: `_acquire_lock` (lines 92-96), `release`: `_release_lock` (lines
98-100); setting the event wakes every waiting task. -/
def Lock.step (l : Lock) : LockOp → Option Lock
  | .acquire t =>
    match l.tasks t with
    | .idle =>
      if l.busy && !l.eventSet then some { l with tasks := l.setTask t .waiting }
      else if l.busy then some { l with tasks := l.setTask t .woken }
      else some { busy := true, eventSet := false, tasks := l.setTask t .holding }
    | _ => none
  | .resume t =>
    match l.tasks t with
    | .woken => some { busy := true, eventSet := false, tasks := l.setTask t .holding }
    | _ => none
  | .release t =>
    match l.tasks t with
    | .holding =>
      some { busy := false, eventSet := true,
             tasks := fun u => if u = t then .idle else match l.tasks u with
               | .waiting => .woken
               | x => x }
    | _ => none

/-- A schedule. -/
def Lock.run (l : Lock) : List LockOp → Option Lock
  | [] => some l
  | o :: r =>
    match l.step o with
    | none => none
    | some l' => l'.run r

end CocotbBus
