import Verif.Model.SharedObj

/-! # Specification vocabulary for transactions that are objects -/

namespace CocotbBus.Spec
variable {V : Type}

/-- The objects appended in a history with their contents at the time of the call; `heap`: the contents at the beginning. -/
def appendedAs : (Nat → V) → List (ObjOp V) → List (Nat × V)
  | _, [] => []
  | heap, .change r v :: h => appendedAs (fun r' => if r' = r then v else heap r') h
  | heap, .other (.append it) :: h => (it.txn, heap it.txn) :: appendedAs heap h
  | heap, _ :: h => appendedAs heap h

/-- No object is changed after it was appended: `given` are those appended before. -/
def NotChangedLater : List Nat → List (ObjOp V) → Prop
  | _, [] => True
  | given, .change r _ :: h => r ∉ given ∧ NotChangedLater given h
  | given, .other (.append it) :: h => NotChangedLater (it.txn :: given) h
  | given, _ :: h => NotChangedLater given h

/-- The objects that are queued, or whose send has not looked at them yet. -/
def waitingObjs (s : ObjDrv V) : List Nat :=
  (match s.drv.thread with
    | .sending it _ => if s.looked then [] else [it.txn]
    | _ => []) ++ s.drv.queue.map Item.txn

/-- No object is changed while it waits. -/
def NotChangedWaiting : ObjDrv V → List (ObjOp V) → Prop
  | _, [] => True
  | s, o :: h => (∀ r v, o = .change r v → r ∉ waitingObjs s) ∧ ∀ s', s.step o = some s' → NotChangedWaiting s' h

/-- Callbacks that leave the transactions alone. -/
def LeaveAlone (beh : CbBeh V) : Prop := ∀ calls k v, (beh calls k v).changes = none

/-- Callbacks that do not raise. -/
def NeverRaise (beh : CbBeh V) : Prop := ∀ calls k v, (beh calls k v).raises = none

/-- The callbacks registered by the callbacks called, in order: `before` are the calls before. -/
def addedBy (beh : CbBeh V) : List (Nat × V) → List (Nat × V) → List Nat
  | _, [] => []
  | before, c :: calls => (beh before c.1 c.2).adds ++ addedBy beh (before ++ [c]) calls

/-- Each callback saw what the callbacks before it left: `before` are the calls before, `v` what the first saw. -/
def SawInTurn (beh : CbBeh V) : List (Nat × V) → V → List (Nat × V) → Prop
  | _, _, [] => True
  | before, v, c :: calls => c.2 = v ∧ SawInTurn beh (before ++ [c]) ((beh before c.1 v).changes.getD v) calls

end CocotbBus.Spec
