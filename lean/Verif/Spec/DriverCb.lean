import Verif.Spec.Driver
import Verif.Model.DriverCb

/-! # Vocabulary for callbacks that use the driver -/

namespace CocotbBus.Spec
variable {T : Type}

/-- What a callback appends. -/
def cbAppended : List (CbOp T) → List (Item T)
  | [] => []
  | .append it :: r => it :: cbAppended r
  | .clear :: r => cbAppended r

/-- Everything that is appended in a history, by callbacks or otherwise. -/
def allAppended : List (RDOp T) → List (Item T)
  | [] => []
  | .plain (.append it) :: r => it :: allAppended r
  | .plain _ :: r => allAppended r
  | .done calls _ :: r => cbAppended calls ++ allAppended r

/-- Nobody calls `clear`, neither from a callback nor otherwise. -/
def NoClear (h : List (RDOp T)) : Prop := .plain .clear ∉ h ∧ ∀ calls exc, .done calls exc ∈ h → .clear ∉ calls

/-- Number of sends that were completed. -/
def cbCompletions (h : List (RDOp T)) : Nat := (h.filter fun o => match o with
  | .done _ _ => true
  | .plain _ => false).length

end CocotbBus.Spec
