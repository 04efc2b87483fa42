import Verif.Model.Driver

/-!
# Callbacks that use the driver: `drivers/__init__.py:108-134, 185-191, 204-210`

In `Model/Driver.lean` a callback does not call the driver it was given to. Here it may call `append` and `clear`, any number of times. It
runs inside the sending coroutine, so nothing else happens meanwhile. A callback that calls `kill` is not modelled (a coroutine that kills
itself is a matter of cocotb).
-/

namespace CocotbBus
variable {T : Type}

/-- What a callback does to the driver. -/
inductive CbOp (T : Type) where
  | append (it : Item T)    -- lines 108-130
  | clear                   -- lines 132-134
  deriving DecidableEq, Repr

/-- What can happen: a step of the old model in which no send is completed, or a send is completed (lines 185-191): the callback does
`calls` and then returns or raises. -/
inductive RDOp (T : Type) where
  | plain (o : DOp T)
  | done (calls : List (CbOp T)) (exc : Option PyErr)
  deriving DecidableEq, Repr

/-- `self._sendQ.append(...)`, `self._pending.set()` (drivers/__init__.py:129-130) and `self._sendQ = deque()` (line 134), called from within
the sending coroutine, which is not waiting for the event. -/
def Drv.cbCall (s : Drv T) : CbOp T → Drv T
  | .append it => { s with queue := s.queue ++ [it], pending := true }
  | .clear => { s with queue := [] }

/-- `event.set()`, `callback(transaction)` (drivers/__init__.py:187-191), and the sending coroutine goes on (lines 204-210) or ends with the
exception. -/
def Drv.complete (s : Drv T) (it : Item T) (calls : List (CbOp T)) (exc : Option PyErr) : Option (Drv T) :=
  let s := if it.hasEvent then { s with log := s.log ++ [.event it] } else s
  if it.hasCb then
    let s := calls.foldl Drv.cbCall { s with log := s.log ++ [.callback it] }
    match exc with
    | none => some s.inner
    | some e => some { s with thread := .dead e }
  else if calls = [] ∧ exc = none then some s.inner
  else none

/-- One step; `none` if it is not possible. -/
def Drv.stepCb (s : Drv T) : RDOp T → Option (Drv T)
  | .plain .sendDone => none
  | .plain (.callbackRaise _) => none
  | .plain o => s.step o
  | .done calls exc =>
    match s.thread with
    | .sending it _ => s.complete it calls exc
    | _ => none

/-- A history. -/
def Drv.runCb (s : Drv T) : List (RDOp T) → Option (Drv T)
  | [] => some s
  | o :: r =>
    match s.stepCb o with
    | none => none
    | some s' => s'.runCb r

end CocotbBus
