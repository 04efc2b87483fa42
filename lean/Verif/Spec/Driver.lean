import Verif.Model.Driver

/-! # Specification vocabulary for the driver queue and lock -/

namespace CocotbBus.Spec
variable {T : Type}

/-- Transactions appended in a history. -/
def appended : List (DOp T) → List (Item T)
  | [] => []
  | .append it :: r => it :: appended r
  | _ :: r => appended r

/-- What is to be sent after a history: the transactions appended, in order, without those that were queued at a call of `clear()`. `queued h q` says that `q` is
what is queued after `h`. -/
inductive ToSend (queued : List (DOp T) → List (Item T) → Prop) : List (DOp T) → List (Item T) → Prop where
  | nil : ToSend queued [] []
  | append {h l} (it : Item T) : ToSend queued h l → ToSend queued (h ++ [.append it]) (l ++ [it])
  | clear {h l q} : ToSend queued h (l ++ q) → queued h q → ToSend queued (h ++ [.clear]) l
  | other {h l o} : (∀ it, o ≠ .append it) → o ≠ .clear → ToSend queued h l → ToSend queued (h ++ [o]) l

/-- Transactions whose send was started, in order, with their sync flag. -/
def started : List (DEv T) → List (Item T × Bool)
  | [] => []
  | .start it s :: r => (it, s) :: started r
  | _ :: r => started r

/-- The coroutine has not ended. -/
def alive (s : Drv T) : Prop := s.thread ≠ .killed ∧ ∀ e, s.thread ≠ .dead e

/-- Only scheduler activity and successful completions. -/
def progress : DOp T → Prop
  | .run => True
  | .sendDone => True
  | _ => False

/-- The sync flags of a log: `fresh` says whether no transaction was started since the coroutine
last found the queue empty (or since it was created). -/
def SyncOk : Bool → List (DEv T) → Prop
  | _, [] => True
  | _, .idle :: r => SyncOk true r
  | fresh, .start _ sync :: r => sync = fresh ∧ SyncOk false r
  | fresh, _ :: r => SyncOk fresh r

/-- What is observed of a transaction that was sent successfully. -/
def fullRecord (p : Item T × Bool) : List (DEv T) :=
  .start p.1 p.2 :: ((if p.1.hasEvent then [.event p.1] else []) ++ (if p.1.hasCb then [.callback p.1] else []))

/-- Number of successfully completed sends (including those whose callback raised). -/
def completions : List (DOp T) → Nat
  | [] => 0
  | .sendDone :: r => completions r + 1
  | .callbackRaise _ :: r => completions r + 1
  | _ :: r => completions r

/-- All notifications (everything but `idle`). -/
def visible (l : List (DEv T)) : List (DEv T) := l.filter (fun e => match e with
  | .idle => false
  | _ => true)

/-- A history of lock operations in which no release finds two or more waiters and nobody tries to
acquire while a woken waiter has not yet run. -/
def LockDisciplined : Lock → List LockOp → Prop
  | _, [] => True
  | l, o :: r =>
    (match o with
      | .acquire _ => ∀ u, l.tasks u ≠ .woken
      | .release _ => ∀ u v, l.tasks u = .waiting → l.tasks v = .waiting → u = v
      | .resume _ => True) ∧
    (∀ l', l.step o = some l' → LockDisciplined l' r)

/-- A history in which the caller never mixes: blocking sends are made only while nothing is queued or being
sent by the coroutine, and nothing is appended while a blocking send is in flight. -/
def SendDisciplined : Drv T → List (DOp T) → Prop
  | _, [] => True
  | s, o :: r =>
    (match o with
      | .send _ => s.queue = [] ∧ (∀ it b, s.thread ≠ .sending it b) ∧ s.direct = []
      | .append _ => s.direct = []
      | _ => True) ∧
    (∀ s', s.step o = some s' → SendDisciplined s' r)

/-- Number of transactions on the bus: blocking sends in flight plus the coroutine's. -/
def onBus (s : Drv T) : Nat :=
  s.direct.length + (match s.thread with
    | .sending _ _ => 1
    | _ => 0)

end CocotbBus.Spec
