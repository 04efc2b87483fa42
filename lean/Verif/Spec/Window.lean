import Verif.Spec.Online

/-! # A reordering window on expected output that is produced while the test runs -/

namespace CocotbBus.Spec
variable {T : Type}

/-- `==` says the same as the comparison of the scoreboard, and it is symmetric and transitive. -/
structure Agrees (ops : TxnOps T) (strict : Bool) : Prop where
  same : ∀ a b, ops.eq a b = true ↔ Accepts ops strict b a
  symm : ∀ a b, Accepts ops strict a b → Accepts ops strict b a
  trans : ∀ a b c, Accepts ops strict a b → Accepts ops strict b c → Accepts ops strict a c

/-- A history can be explained: each transaction of monitor `mid` is paired with one of the first `d+1` values that are in the
expected list at that time and not paired yet, and at the end no value is left. -/
inductive Explained (d : Nat) (acc : T → T → Prop) (mid ref : Nat) : List T → List (SbOp T) → Prop
  | done : Explained d acc mid ref [] []
  | take (pre post : List T) (e got : T) (h : List (SbOp T)) (hpre : pre.length ≤ d) (hacc : acc got e)
      (rest : Explained d acc mid ref (pre ++ post) h) : Explained d acc mid ref (pre ++ e :: post) (.recv mid got :: h)
  | otherMonitor (m : Nat) (t : T) (E : List T) (h : List (SbOp T)) (hm : m ≠ mid)
      (rest : Explained d acc mid ref E h) : Explained d acc mid ref E (.recv m t :: h)
  | add (ts E : List T) (h : List (SbOp T)) (rest : Explained d acc mid ref (E ++ ts) h) : Explained d acc mid ref E (.extend ref ts :: h)
  | otherList (rf : Nat) (ts E : List T) (h : List (SbOp T)) (hr : rf ≠ ref)
      (rest : Explained d acc mid ref E h) : Explained d acc mid ref E (.extend rf ts :: h)

/-- The same for a test with a reference model `f`: each output is paired with one of the first `d+1` values that the model has
computed from the inputs so far, and that are not paired yet. `on`: the model was not stopped. -/
inductive ExplainedIo (d : Nat) (acc : T → T → Prop) (f : T → T) : Bool → List T → List (IoOp T) → Prop
  | done (on : Bool) : ExplainedIo d acc f on [] []
  | output (on : Bool) (pre post : List T) (e got : T) (h : List (IoOp T)) (hpre : pre.length ≤ d) (hacc : acc got e)
      (rest : ExplainedIo d acc f on (pre ++ post) h) : ExplainedIo d acc f on (pre ++ e :: post) (.output got :: h)
  | input (t : T) (E : List T) (h : List (IoOp T)) (rest : ExplainedIo d acc f true (E ++ [f t]) h) :
      ExplainedIo d acc f true E (.input t :: h)
  | ignored (t : T) (E : List T) (h : List (IoOp T)) (rest : ExplainedIo d acc f false E h) :
      ExplainedIo d acc f false E (.input t :: h)
  | stop (on : Bool) (E : List T) (h : List (IoOp T)) (rest : ExplainedIo d acc f false E h) : ExplainedIo d acc f on E (.stop :: h)

end CocotbBus.Spec
