import Verif.Model.AxiTry
import Verif.Spec.AxiUse

/-! # Calls that the master rejects -/

namespace CocotbBus.Spec

/-- The master rejects the call with the exception `e`: the arguments are not legal, or the address of a (legal) read does not fit ARADDR. -/
def Rejected (c : AxCfg) (e : PyErr) : AxOp → Prop
  | .write a v size burst _ _ _ _ => e = .valueError ∧ ¬ ∃ sz, Legal c a v.length size burst sz
  | .read a len size burst _ => (e = .valueError ∧ ¬ ∃ sz, Legal c a len size burst sz) ∨ (e = .overflowError ∧ (∃ sz, Legal c a len size burst sz) ∧ 2 ^ c.addrW ≤ a)
  | .liteWrite .. => False
  | .liteRead a _ => e = .overflowError ∧ 2 ^ c.addrW ≤ a
  | .pause _ => False

/-- A call and, if it is rejected, the exception. -/
abbrev AxCall := AxOp × Option PyErr

/-- The call is one that works, or one that is rejected with that exception. -/
def CallOk (c : AxCfg) : AxCall → Prop
  | (op, none) => AxOpOk c op
  | (op, some e) => Rejected c e op

/-- The calls that are not rejected. -/
def accepted (calls : List AxCall) : List AxOp := (calls.filter (fun q => q.2.isNone)).map Prod.fst

/-- The outcomes of all calls, given those of the accepted ones. -/
def weave : List AxCall → List (Except PyErr (List LogicArray)) → List (Except PyErr (List LogicArray))
  | [], _ => []
  | (_, some e) :: calls, l => .error e :: weave calls l
  | (_, none) :: calls, x :: l => x :: weave calls l
  | (_, none) :: _, [] => []

/-- The clock edges used by a rejected call: a read waits for one before it sets the address, if it is to synchronise. -/
def edgesLost : AxOp → PyErr → Nat
  | .read _ _ _ _ sync, .overflowError => if sync then 1 else 0
  | .liteRead _ sync, .overflowError => if sync then 1 else 0
  | _, _ => 0

/-- The number of edges within which a call ends if the memory does everything within `N` edges. -/
def callCost (N : Nat) : AxCall → Nat
  | (op, none) => axCost N op
  | (op, some e) => edgesLost op e

end CocotbBus.Spec
