import Verif.Model.Coro

/-!
# Specification vocabulary: valid/ready streams

A trace has one record `(o, i)` per rising edge: the values driven by the modelled code and by the rest of the design
just before that edge. A transfer happens at an edge at which valid and ready are both asserted.
-/

namespace CocotbBus.Spec

/-- One valid/ready channel: how to read it off the pins. Without a ready signal `ready` is always true. -/
structure Stream (I O P : Type) where
  valid : O → Bool
  ready : I → Bool
  payload : O → P

variable {I O P α : Type}

/-- A transfer at this edge? -/
def Stream.xfer (V : Stream I O P) (r : O × I) : Bool := V.valid r.1 && V.ready r.2

/-- The payloads transferred in a trace. -/
def Stream.taken (V : Stream I O P) (t : List (O × I)) : List P := (t.filter V.xfer).map (fun r => V.payload r.1)

/-- A payload offered and not taken is offered again, unchanged, at the next edge. -/
def Stream.Holds (V : Stream I O P) : List (O × I) → Prop
  | [] => True
  | [_] => True
  | a :: b :: r =>
    (V.valid a.1 = true → V.ready a.2 = false → V.valid b.1 = true ∧ V.payload b.1 = V.payload a.1) ∧ V.Holds (b :: r)

/-- Number of edges since the last transfer at which valid was not asserted (`k` counted before the trace). -/
def Stream.trail (V : Stream I O P) : Nat → List (O × I) → Nat
  | k, [] => k
  | k, r :: t => if V.xfer r then V.trail 0 t else if V.valid r.1 then V.trail k t else V.trail (k + 1) t

/-- For every transfer, the number of edges since the one before it at which valid was not asserted. -/
def Stream.idleBefore (V : Stream I O P) : Nat → List (O × I) → List Nat
  | _, [] => []
  | k, r :: t =>
    if V.xfer r then k :: V.idleBefore 0 t
    else if V.valid r.1 then V.idleBefore k t
    else V.idleBefore (k + 1) t

/-- Records of an execution: those of the edges so far, and the values that will be there at the next edge. -/
def pending (r : Res I O α) : List (O × I) := r.1 ++ [(r.2.sim.out, r.2.sim.cur)]

end CocotbBus.Spec
