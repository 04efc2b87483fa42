import Verif.Model.AvalonST
import Verif.Spec.DriverBase

/-! # Avalon-ST specification: when a word is transferred -/

namespace CocotbBus.Spec

/-- A word is transferred at a rising edge at which valid is 1, and ready is 1 if the bus has it. -/
def Transfers (hasReady : Bool) (r : StOut × StIn) : Prop := r.1.valid = .one ∧ (hasReady = true → r.2.ready = .one)

instance (h : Bool) (r : StOut × StIn) : Decidable (Transfers h r) := by unfold Transfers; infer_instance

/-- The sink can take a word: ready is 1, or there is no such signal. -/
def CanTake (hasReady : Bool) (i : StIn) : Prop := hasReady = true → i.ready = .one

instance (h : Bool) (i : StIn) : Decidable (CanTake h i) := by unfold CanTake; infer_instance

/-- The words transferred in a trace. -/
def transferred (hasReady : Bool) (t : List (StOut × StIn)) : List LogicArray :=
  (t.filter (fun r => Transfers hasReady r)).map (fun r => r.1.data)

/-- A word offered and not taken is offered again, unchanged, at the next edge. -/
def HoldsUntilTaken (hasReady : Bool) : List (StOut × StIn) → Prop
  | [] => True
  | [_] => True
  | a :: b :: r => (a.1.valid = .one → ¬ Transfers hasReady a → b.1 = a.1) ∧ HoldsUntilTaken hasReady (b :: r)

/-- Records of an execution: those of the edges so far, and the values that will be there at the next edge. -/
def withPending {α : Type} (r : Res StIn StOut α) : List (StOut × StIn) := r.1 ++ [(r.2.sim.out, r.2.sim.cur)]

/-- For every word transferred, the number of idle edges (valid not 1) since the word before it. -/
def idleBefore (hasReady : Bool) : Nat → List (StOut × StIn) → List Nat
  | _, [] => []
  | k, r :: t =>
    if Transfers hasReady r then k :: idleBefore hasReady 0 t
    else if r.1.valid = .one then idleBefore hasReady k t
    else idleBefore hasReady (k + 1) t

/-- One idle edge for each word sent with `sync=True`. -/
def syncEdges (sync : Bool) : Nat := if sync then 1 else 0

end CocotbBus.Spec
