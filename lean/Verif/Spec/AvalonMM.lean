import Verif.Model.AvalonMM
import Verif.Spec.Stream

/-! # Avalon-MM: specification vocabulary -/

namespace CocotbBus.Spec
variable {I O P : Type}

/-- The trace of one request `p`, seen as a transfer on the stream `V`: `lead` edges without it, then it is held while the
receiver is not ready, then accepted at the last edge; a trace that stops earlier is a prefix of that. -/
def Stream.Request (V : Stream I O P) (p : P) (lead : Nat) (t : List (O × I)) (accepted : Bool) : Prop :=
  ∃ idle held : List (O × I), (∀ q ∈ idle, V.valid q.1 = false) ∧
    (∀ q ∈ held, V.valid q.1 = true ∧ V.payload q.1 = p ∧ V.ready q.2 = false) ∧
    if accepted then
      idle.length = lead ∧ ∃ q, t = idle ++ held ++ [q] ∧ V.valid q.1 = true ∧ V.payload q.1 = p ∧ V.ready q.2 = true
    else (t = idle ∧ idle.length ≤ lead) ∨ (t = idle ++ held ∧ idle.length = lead)

/-- What a slave sees of a request: address, data, and byte enables and chip select if there are such signals. -/
structure MmReq where
  address : LogicArray
  data : LogicArray
  byteenable : Option LogicArray
  cs : Option Logic
  deriving DecidableEq, Repr

/-- Write requests: accepted at an edge with write high and waitrequest (if there is one) low. -/
def mmWrites (c : MmCfg) : Stream MmIn MmOut MmReq where
  valid o := o.write == .one
  ready i := !c.hasWait || i.waitrequest == .zero
  payload o := ⟨o.address, o.writedata, c.beW.map (fun _ => o.byteenable), if c.hasCs then some o.cs else none⟩

/-- Read requests: accepted at an edge with read high and waitrequest (if there is one) low. -/
def mmReads (c : MmCfg) : Stream MmIn MmOut MmReq where
  valid o := o.read == .one
  ready i := !c.hasWait || i.waitrequest == .zero
  payload o := ⟨o.address, [], c.beW.map (fun _ => o.byteenable), if c.hasCs then some o.cs else none⟩

/-- The request for address `a` (and data `d`) with all byte enables. -/
def mmReq (c : MmCfg) (a : Nat) (d : LogicArray) : MmReq :=
  ⟨natToBits c.addrW a, d, c.beW.map (fun w => List.replicate w .one), if c.hasCs then some .one else none⟩

/-- 0 or 1. -/
def Defined (l : Logic) : Prop := l = .zero ∨ l = .one

end CocotbBus.Spec
