import Verif.Model.AxiGiveUp
import Verif.Spec.AxiMany

/-! # AXI writes that may be given up -/

namespace CocotbBus.Spec
open CocotbBus

/-- The calls without the moments at which they are given up. -/
def callsOnly (wcalls : List (AxOp × Moment × Option Moment)) : List (AxOp × Moment) := wcalls.map (fun x => (x.1, x.2.1))

/-- The requirements on calls of `write` that may be given up: those on calls of `write`, and none is given up before it is made or in the
ReadOnly phase. -/
def GivenOk (c : AxCfg) (wcalls : List (AxOp × Moment × Option Moment)) : Prop :=
  CallsOk c IsWrite (callsOnly wcalls) ∧ ∀ x ∈ wcalls, ∀ q, x.2.2 = some q → q.2 ≠ .ro ∧ Moment.notAfter x.2.1 q

/-- What a call of `write` gets that sees a response. -/
def outcomeOf (code : Nat) : Except PyErr Unit := if code = 0 then .ok () else .error (.axiProtocol code)

end CocotbBus.Spec
