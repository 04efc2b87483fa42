import Verif.Model.MmTasks
import Verif.Spec.MmUse

/-! # Several tasks that use one Avalon-MM master: what is expected -/

namespace CocotbBus.Spec

/-- `ops` without the pauses. -/
def callsOf (ops : List MmOp) : List MmOp :=
  ops.filter fun op => match op with
    | .pause _ => false
    | _ => true

/-- What the reads return, and to which task, if the calls are served by a memory one after the other in this order. -/
def readsBy (w : Nat) : (Nat → Option Nat) → List (Nat × MmOp) → List (Nat × LogicArray)
  | _, [] => []
  | mem, (_, .write a v) :: r => readsBy w (fun b => if b = a then some v else mem b) r
  | mem, (t, .read a) :: r => (t, match mem a with
    | some v => natToBits w v
    | none => List.replicate w .x) :: readsBy w mem r
  | mem, (_, .pause _) :: r => readsBy w mem r

/-- The calls of task `t`. -/
def callsBy (t : Nat) (l : List (Nat × MmOp)) : List MmOp := (l.filter fun p => p.1 == t).map Prod.snd

/-- The calls the task has not begun, or for which it is waiting for the lock. -/
def leftOf : TaskSt → List MmOp
  | .idle ops => ops
  | .paused _ ops => ops
  | .waiting op ops => op :: ops
  | .woken op ops => op :: ops
  | .ready _ ops => ops
  | .atEdge _ ops => ops
  | .atRO _ _ ops => ops
  | .atNext _ ops => ops
  | .dead _ => []

/-- The task has been woken by the release of the lock and has not run yet. -/
def isWoken : TaskSt → Bool
  | .woken _ _ => true
  | _ => false

/-- The task waits for the lock. -/
def isWaiting : TaskSt → Bool
  | .waiting _ _ => true
  | _ => false

/-- A call raised. -/
def isDead : TaskSt → Bool
  | .dead _ => true
  | _ => false

/-- The task has made all its calls, and they have returned. -/
def isDone : TaskSt → Bool
  | .idle [] => true
  | _ => false

/-- The task is about to call `read` or `write`. -/
def aboutToCall : TaskSt → Bool
  | .idle (.read _ :: _) => true
  | .idle (.write _ _ :: _) => true
  | _ => false

/-- No task has anything left to do before the next rising edge. -/
def Settled (g : MmSys) : Prop := ∀ x ∈ g.tasks, x.runnable = false ∧ x.wantsRO = false ∧ x.wantsNext = false

/-- The execution up to now, as that of one coroutine: what was driven in each cycle, and what is driven now. -/
def pinsOf (g : MmSys) : Res MmIn MmOut Unit := (g.trace, .blocked ⟨g.phase, g.out, g.prev, g.cur, []⟩)

/-- In this state the step respects the lock: a task calls only if none has been woken and not run yet, and at most one waits. -/
def CalmStep (g : MmSys) (e : TEv) : Prop :=
  (∀ t x y, e = .run t → g.tasks[t]? = some x → aboutToCall x = true → y ∈ g.tasks → isWoken y = false) ∧
  (∀ (t u : Nat) x y, g.tasks[t]? = some x → g.tasks[u]? = some y → isWaiting x = true → isWaiting y = true → t = u)

/-- All steps respect the lock. -/
def Calm (c : MmCfg) : MmSys → List TEv → Prop
  | _, [] => True
  | g, e :: es => CalmStep g e ∧ ∀ g', g.step c e = some g' → Calm c g' es

/-- After each call the task lets a clock edge pass, unless it was the last one. -/
def Polite : List MmOp → Prop
  | [] => True
  | .pause _ :: r => Polite r
  | _ :: [] => True
  | _ :: .pause (_ + 1) :: r => Polite r
  | _ => False

end CocotbBus.Spec
