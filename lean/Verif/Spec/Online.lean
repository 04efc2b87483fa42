import Verif.Spec.Scoreboard

/-! # Expected output that is produced while the test runs -/

namespace CocotbBus.Spec
variable {T : Type}

/-- the transactions delivered by a monitor in a history -/
def receivedOf (mid : Nat) : List (SbOp T) → List T
  | [] => []
  | .recv m t :: r => if m = mid then t :: receivedOf mid r else receivedOf mid r
  | .extend _ _ :: r => receivedOf mid r

/-- what is added to an expected list in a history -/
def addedTo (ref : Nat) : List (SbOp T) → List T
  | [] => []
  | .recv _ _ :: r => addedTo ref r
  | .extend rf ts :: r => if rf = ref then ts ++ addedTo ref r else addedTo ref r

/-- same length, and acceptable at each position -/
def AllAccepted (ops : TxnOps T) (strict : Bool) (R E : List T) : Prop :=
  R.length = E.length ∧ ∀ k (h1 : k < R.length) (h2 : k < E.length), Accepts ops strict R[k] E[k]

/-- The `k`-th transaction is received only when the expected list has had a `k`-th element. -/
def InTime (E0 : List T) (mid ref : Nat) (h : List (SbOp T)) : Prop :=
  ∀ p t q, h = p ++ .recv mid t :: q → (receivedOf mid p).length < E0.length + (addedTo ref p).length

/-- The events of a test with a reference model: a transaction at the input or at the output of the device, or the test stops the model. -/
inductive IoOp (T : Type) where
  | input (t : T)
  | output (t : T)
  | stop
  deriving DecidableEq

/-- the transactions at the input before the model was stopped -/
def inputsOf : List (IoOp T) → List T
  | [] => []
  | .input t :: r => t :: inputsOf r
  | .output _ :: r => inputsOf r
  | .stop :: _ => []

/-- the transactions at the output -/
def outputsOf : List (IoOp T) → List T
  | [] => []
  | .input _ :: r => outputsOf r
  | .output t :: r => t :: outputsOf r
  | .stop :: r => outputsOf r

/-- One clock edge at a flip-flop: both monitors deliver what they see, in either order. -/
def dffEdge : Bool × T × T → List (IoOp T)
  | (true, d, q) => [.input d, .output q]
  | (false, d, q) => [.output q, .input d]

/-- The flip-flop test: some clock edges, `stop()`, and one more clock edge. -/
def dffTest (es : List (Bool × T × T)) (last : Bool × T × T) : List (IoOp T) :=
  (es.map dffEdge).flatten ++ .stop :: dffEdge last

end CocotbBus.Spec
