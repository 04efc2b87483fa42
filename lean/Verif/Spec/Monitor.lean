import Verif.Model.Monitor

/-! # Specification vocabulary for monitors: histories and what consumers should see -/

namespace CocotbBus.Spec

/-- What happens to a monitor, in order: its coroutine receives a transaction, or the user registers
a callback. -/
inductive MonOp (T σ : Type) where
  | recv (t : T)
  | add (c : Callback T σ)

variable {T σ : Type}

/-- The callback `c` together with a recorder that notes `(i, t)` each time it is called: the list
component of the world is the observation. -/
def recorded (i : Nat) (c : Callback T σ) : Callback T (σ × List (Nat × T)) :=
  fun t w => (((c t w.1).1, w.2 ++ [(i, t)]), (c t w.1).2)

/-- Play a history; the i-th registered callback is observed under number i. -/
def play : List (MonOp T σ) → Monitor T (σ × List (Nat × T)) → σ × List (Nat × T) →
    Monitor T (σ × List (Nat × T)) × (σ × List (Nat × T)) × Option PyErr
  | [], m, w => (m, w, none)
  | .add c :: r, m, w => play r (m.addCallback (recorded m.callbacks.length c)) w
  | .recv t :: r, m, w =>
    match m.recv t w with
    | (m, w, none) => play r m w
    | (m, w, some e) => (m, w, some e)

/-- all transactions of a history, in order -/
def transactions : List (MonOp T σ) → List T
  | [] => []
  | .recv t :: r => t :: transactions r
  | .add _ :: r => transactions r

/-- the transactions received after the i-th callback was registered -/
def afterRegistration : List (MonOp T σ) → Nat → List T
  | [], _ => []
  | .recv _ :: r, i => afterRegistration r i
  | .add _ :: r, 0 => transactions r
  | .add _ :: r, i + 1 => afterRegistration r i

/-- the transactions received before any callback was registered -/
def beforeCallbacks : List (MonOp T σ) → List T
  | [] => []
  | .recv t :: r => t :: beforeCallbacks r
  | .add _ :: _ => []

/-- all callback invocations, in order: for each transaction the callbacks registered so far, in
registration order (`k` = number registered at the start) -/
def invocations : Nat → List (MonOp T σ) → List (Nat × T)
  | _, [] => []
  | k, .recv t :: r => (List.range k).map (fun i => (i, t)) ++ invocations k r
  | k, .add _ :: r => invocations (k + 1) r

/-- no callback of the history ever raises -/
def NoRaise (h : List (MonOp T σ)) : Prop :=
  ∀ c, MonOp.add c ∈ h → ∀ t w, (c t w).2 = none

end CocotbBus.Spec
