import Verif.Model.StreamFifo
import Verif.Spec.AvalonST
import Verif.Spec.Online

/-! # What is asked of the streaming test -/

namespace CocotbBus.Spec
open CocotbBus

/-- No word is sent right at the edge at which the word before it was taken: the test waits for an edge in between, or `send` does so (`sync`). -/
def NotBackToBack : List StreamItem → Prop
  | a :: b :: r => (0 < a.pause ∨ b.sync = true) ∧ NotBackToBack (b :: r)
  | _ => True

/-- At how many of `p` edges from number `n` on something is the case. -/
def countEdges (n p : Nat) (f : Nat → Bool) : Nat := ((List.range p).filter (fun j => f (n + j))).length

end CocotbBus.Spec
