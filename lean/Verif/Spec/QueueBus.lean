import Verif.Model.QueueBus
import Verif.Spec.AvalonST
import Verif.Spec.Session

/-! # Specification vocabulary: schedules of `append()` -/

namespace CocotbBus.Spec

/-- What has been appended stays appended, in the same order. -/
def Grows {α : Type} (app : Sched α) : Prop :=
  ∀ r, app r .edge <+: app r .ro ∧ app r .ro <+: app r .mid ∧ app (r + 1) .mid <+: app r .edge

/-- `append()` is never called in the ReadOnly phase. -/
def NotInReadOnly {α : Type} (app : Sched α) : Prop := ∀ r, app r .ro = app r .edge

/-- Everything that is ever appended. -/
def everything {α : Type} (app : Sched α) : List α := app 0 .mid

/-- `W r ph`: the words appended so far, `sent` of them transferred before this trace, whose first cycle has `r` cycles after it. If at an
edge a word that was appended before it remains to be transferred, then that word is on offer at the next edge. -/
def Prompt (hasReady : Bool) (W : Sched LogicArray) : (sent r : Nat) → List (StOut × StIn) → Prop
  | _, _, [] => True
  | _, _, [_] => True
  | sent, r, a :: b :: t =>
    let sent' := if Transfers hasReady a then sent + 1 else sent
    (∀ w, (W r .mid)[sent']? = some w → b.1 = ⟨.one, w⟩) ∧ Prompt hasReady W sent' (r - 1) (b :: t)

end CocotbBus.Spec
