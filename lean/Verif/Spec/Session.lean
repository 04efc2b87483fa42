import Verif.Model.Session
import Verif.Spec.AvalonPkts

/-! # Specification vocabulary: uses of a driver over time -/

namespace CocotbBus.Spec

/-- The transactions sent in a use of a driver, in order. -/
def sends {α : Type} : List (Act α) → List α
  | [] => []
  | .send x :: r => x :: sends r
  | .pause _ :: r => sends r
  | .step :: r => sends r
  | .gen _ :: r => sends r

end CocotbBus.Spec
