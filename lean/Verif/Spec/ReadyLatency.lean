import Verif.Spec.AvalonPkts

/-!
# Specification: a sink with a ready latency (C115)

In an Avalon-ST interface with ready latency `L` the sink that asserts ready at an edge takes what is offered `L` edges later: the beat that
counts at an edge is the one offered under the ready of `L` edges before.
-/

namespace CocotbBus.Spec

variable {I O P : Type}

/-- The ready of `past.length` edges before, for every edge of a trace. `past`: ready at the edges just before the trace, oldest first. -/
def Stream.readyAgo (V : Stream I O P) (past : List Bool) (t : List (O × I)) : List Bool :=
  (past ++ t.map (fun r => V.ready r.2)).take t.length

/-- What a sink with ready latency `past.length` takes. -/
def Stream.takenLate (V : Stream I O P) (past : List Bool) (t : List (O × I)) : List P :=
  ((t.zip (V.readyAgo past t)).filter (fun x => V.valid x.1.1 && x.2)).map (fun x => V.payload x.1.1)

/-- At every edge with something on offer, ready is what it was `past.length` edges before. -/
def Stream.SteadyReady (V : Stream I O P) (past : List Bool) (t : List (O × I)) : Prop :=
  ∀ x ∈ t.zip (V.readyAgo past t), V.valid x.1.1 = true → x.2 = V.ready x.1.2

/-- The source may offer something only in a ready cycle, that is `past.length` edges after an edge with ready. -/
def Stream.OffersWhenReady (V : Stream I O P) (past : List Bool) (t : List (O × I)) : Prop :=
  ∀ x ∈ t.zip (V.readyAgo past t), V.valid x.1.1 = true → x.2 = true

/-- The beats that a sink with ready latency `past.length` takes outside reset. -/
def beatsLate (c : PkCfg) (past : List Bool) (t : List (PkOut × PkIn)) : List PkOut :=
  (t.zip ((pkStream c).readyAgo past t)).filterMap (fun x =>
    if inReset x.1.2.resetN x.1.2.reset = .ok true then none
    else if (pkStream c).valid x.1.1 && x.2 then some x.1.1 else none)

end CocotbBus.Spec
