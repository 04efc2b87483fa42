import Verif.Proof.Ghost
import Verif.Proof.AvalonPkts

/-!
What the packet driver does with start of packet between two edges: if a first beat is offered and start of packet was 1 at the edge before too,
then a beat was offered there.
-/

namespace CocotbBus
open Spec Coro

/-- 0 or 1 -/
def Known (l : Logic) : Prop := l = .zero ∨ l = .one

/-- of an edge: start of packet, and whether a beat was offered -/
def sopUpd (_ : Logic × Bool) (r : PkOut × PkIn) : Logic × Bool := (r.1.sop, r.1.valid == .one)

/-- an edge after one with start of packet `g.1`, at which a beat was offered if `g.2` -/
structure SopAcc (g : Logic × Bool) (r : PkOut × PkIn) : Prop where
  valid : Known r.1.valid
  sop : r.1.valid = .one → Known r.1.sop
  eop : r.1.valid = .one → Known r.1.eop
  fresh : r.1.valid = .one → r.1.sop = .one → g.1 = .one → g.2 = true

theorem SopAcc.idle {g : Logic × Bool} {r : PkOut × PkIn} (h : r.1.valid = .zero) : SopAcc g r := by
  refine ⟨.inl h, ?_, ?_, ?_⟩ <;> (intro h'; rw [h] at h'; cases h')

/-- what a beat starts with -/
structure SopPre (first : Bool) (g : Logic × Bool) (s : Sim PkIn PkOut) : Prop where
  phase : s.phase ≠ .ro
  eop : Known s.out.eop
  first : first = true → (g.1 = .one → g.2 = true) ∧ s.out.sop ≠ .one

theorem sop_gap (first : Bool) (v : Valids) : GTriple sopUpd SopAcc (SopPre first) (gapM pkLower v) (fun _ => SopPre first) := by
  unfold gapM
  split
  · refine GTriple.bind (S := fun _ g s => SopPre first g s ∧ s.out.valid = .zero)
      (GTriple.write _ (fun g s hs => hs.phase) (fun g s hs => ⟨⟨hs.phase, hs.eop, hs.first⟩, rfl⟩)) fun _ => ?_
    refine GTriple.bind (GTriple.edges (Inv := fun g s => SopPre first g s ∧ s.out.valid = .zero) (fun g s hs => .idle hs.2)
      (fun g s i r hs => ⟨⟨by simp, hs.1.eop, fun h => ⟨fun h' => absurd h' (hs.1.first h).2, (hs.1.first h).2⟩⟩, hs.2⟩) _) fun _ => ?_
    exact GTriple.pure _ (fun g s hs => hs.1)
  · exact GTriple.pure _ (fun g s hs => hs)

/-- after the writes of a beat -/
structure SopOffer (g : Logic × Bool) (s : Sim PkIn PkOut) : Prop where
  valid : s.out.valid = .one
  sop : Known s.out.sop
  eop : Known s.out.eop
  fresh : s.out.sop = .one → g.1 = .one → g.2 = true

theorem SopOffer.acc {g : Logic × Bool} {s : Sim PkIn PkOut} (h : SopOffer g s) : SopAcc g (s.out, s.cur) :=
  ⟨.inr h.valid, fun _ => h.sop, fun _ => h.eop, fun _ => h.fresh⟩

theorem sop_beat (c : PkCfg) (first : Bool) (string : Bytes) (v : Valids) :
    GTriple sopUpd SopAcc (SopPre first) (pkBeat c none first string v) (fun _ => SopOffer) := by
  unfold pkBeat
  refine GTriple.bind (sop_gap first v) fun v' => ?_
  refine GTriple.bind (S := fun _ g s => SopPre first g s ∧ s.out.valid = .one)
    (GTriple.write _ (fun g s hs => hs.phase) (fun g s hs => ⟨⟨hs.phase, hs.eop, hs.first⟩, rfl⟩)) fun _ => ?_
  refine GTriple.bind (S := fun _ g s => SopPre first g s ∧ s.out.valid = .one) ?_ fun _ => ?_
  · unfold pkChannel
    split
    · exact GTriple.pure _ (fun g s hs => hs)
    · exact GTriple.write _ (fun g s hs => hs.1.phase) (fun g s hs => ⟨⟨hs.1.phase, hs.1.eop, hs.1.first⟩, hs.2⟩)
  refine GTriple.bind (S := fun _ g s => s.phase ≠ .ro ∧ SopOffer g s)
    (GTriple.write _ (fun g s hs => hs.1.phase) (fun g s hs => ⟨hs.1.phase, hs.2, ?_, hs.1.eop, ?_⟩)) fun _ => ?_
  · cases first
    · exact .inl rfl
    · exact .inr rfl
  · intro h1 h2
    cases first with
    | false => cases h1
    | true => exact (hs.1.first rfl).1 h2
  refine GTriple.bind (S := fun _ g s => s.phase ≠ .ro ∧ SopOffer g s) ?_ fun rest => ?_
  · split
    · refine GTriple.bind (S := fun _ g s => s.phase ≠ .ro ∧ SopOffer g s)
        (GTriple.write _ (fun g s hs => hs.1) (fun g s hs => ⟨hs.1, hs.2.valid, hs.2.sop, .inr rfl, hs.2.fresh⟩)) fun _ => ?_
      refine GTriple.bind (S := fun _ g s => s.phase ≠ .ro ∧ SopOffer g s) ?_ fun _ => GTriple.pure _ (fun g s hs => hs)
      unfold pkEmpty
      split
      · split
        · exact GTriple.raise _
        · split
          · exact GTriple.write _ (fun g s hs => hs.1) (fun g s hs => ⟨hs.1, hs.2.valid, hs.2.sop, hs.2.eop, hs.2.fresh⟩)
          · exact GTriple.raise _
      · exact GTriple.pure _ (fun g s hs => hs)
    · exact GTriple.pure _ (fun g s hs => hs)
  refine GTriple.bind (S := fun _ g s => s.phase ≠ .ro ∧ SopOffer g s) (GTriple.ofExcept _ (fun a g s _ hs => hs)) fun d => ?_
  refine GTriple.bind (S := fun _ g s => s.phase ≠ .ro ∧ SopOffer g s)
    (GTriple.write _ (fun g s hs => hs.1) (fun g s hs => ⟨hs.1, hs.2.valid, hs.2.sop, hs.2.eop, hs.2.fresh⟩)) fun _ => ?_
  refine GTriple.bind (S := fun _ g s => SopOffer g s) ?_ fun _ => GTriple.pure _ (fun g s hs => hs)
  refine GTriple.when _ (fun _ => ?_) (fun _ g s hs => hs.2)
  refine GTriple.waitRO (Inv := fun g s => s.phase = .ro ∧ SopOffer g s) _
    (fun g s hs => ⟨rfl, hs.2.valid, hs.2.sop, hs.2.eop, hs.2.fresh⟩) (fun g s hs => hs.1) (fun g s hs _ => hs.2.acc)
    (fun g s i r hs _ => ⟨rfl, hs.2.valid, hs.2.sop, hs.2.eop, fun _ _ => ?_⟩) (fun g s hs _ => hs.2)
  simp only [sopUpd, beq_iff_eq]
  exact hs.2.valid

/-- between packets -/
def SopReady (g : Logic × Bool) (s : Sim PkIn PkOut) : Prop := s.phase ≠ .ro ∧ (g.1 = .one → g.2 = true)

theorem sop_send (c : PkCfg) (pkt : Bytes) (sync : Bool) (v : Valids) :
    GTriple sopUpd SopAcc (fun g s => s.phase ≠ .ro ∧ (sync = true ∨ (g.1 = .one → g.2 = true))) (pkSend c pkt sync none v)
      (fun _ g s => SopReady g s ∧ s.out.valid = .zero) := by
  unfold pkSend
  refine GTriple.bind (S := fun _ g s => s.phase ≠ .ro ∧ (sync = true ∨ (g.1 = .one → g.2 = true)) ∧ s.out.valid = .zero ∧ s.out.sop = .zero ∧ s.out.eop = .zero)
    (GTriple.write _ (fun g s hs => hs.1) (fun g s hs => ⟨hs.1, hs.2, rfl, rfl, rfl⟩)) fun _ => ?_
  refine GTriple.bind (S := fun _ g s => s.phase ≠ .ro ∧ (sync = true ∨ (g.1 = .one → g.2 = true)) ∧ s.out.valid = .zero ∧ s.out.sop = .zero ∧ s.out.eop = .zero)
    (GTriple.when _ (fun _ => GTriple.raise _) (fun _ g s hs => hs)) fun _ => ?_
  refine GTriple.bind (S := fun _ g s => SopAcc g (s.out, s.cur) ∧ (s.out.sop = .one → s.out.valid = .one)) ?_ fun v' => ?_
  · split
    · exact GTriple.pure _ (fun g s hs => ⟨.idle hs.2.2.1, fun h => by rw [hs.2.2.2.1] at h; cases h⟩)
    · refine GTriple.bind (S := fun _ => SopPre true) ?_ fun _ => ?_
      · refine GTriple.when _ (fun _ => ?_) (fun hsync g s hs => ⟨hs.1, .inl hs.2.2.2.2, fun _ => ⟨?_, by rw [hs.2.2.2.1]; decide⟩⟩)
        · exact GTriple.awaitEdge (fun g s hs => .idle hs.2.2.1) (fun g s i r hs => ⟨by simp, .inl hs.2.2.2.2, fun _ => by
            simp [sopUpd, hs.2.2.2.1]⟩)
        · rcases hs.2.1 with h | h
          · rw [h] at hsync; cases hsync
          · exact h
      refine GTriple.bind (sop_beat c true _ v) fun x => ?_
      refine (GTriple.loop (Q := fun _ => SopOffer) (Inv := fun _ => SopOffer) _ (fun x => ?_) x).weaken (fun g s h => h)
        (fun a g s h => ⟨h.acc, fun _ => h.valid⟩)
      split
      · exact GTriple.pure _ (fun g s hs => hs)
      · refine GTriple.bind (S := fun _ => SopPre false) ?_ fun _ => ?_
        · exact GTriple.awaitEdge (fun g s hs => hs.acc) (fun g s i r hs => ⟨by simp, hs.eop, fun h => by cases h⟩)
        refine GTriple.bind (sop_beat c false _ _) fun y => ?_
        exact GTriple.pure _ (fun g s hs => hs)
  · refine GTriple.bind (S := fun _ g s => SopReady g s)
      (GTriple.awaitEdge (fun g s hs => hs.1) (fun g s i r hs => ⟨by simp, fun h => by simpa [sopUpd] using hs.2 h⟩)) fun _ => ?_
    refine GTriple.bind (S := fun _ g s => SopReady g s ∧ s.out.valid = .zero)
      (GTriple.write _ (fun g s hs => hs.1) (fun g s hs => ⟨hs, rfl⟩)) fun _ => ?_
    exact GTriple.pure _ (fun g s hs => hs)

/-- for packets sent without channel; the first of them needs `sync`, or start of packet not 1 to begin with -/
theorem sop_sendAll (c : PkCfg) (items : List PkItem) : (∀ p ∈ items, p.channel = none) → ∀ v,
    GTriple sopUpd SopAcc (fun g s => s.phase ≠ .ro ∧ ((∀ p, items.head? = some p → p.sync = true) ∨ (g.1 = .one → g.2 = true))) (pkSendAll c items v)
      (fun _ _ s => s.phase ≠ .ro ∧ (items ≠ [] → s.out.valid = .zero)) := by
  induction items with
  | nil => intro hi v; exact GTriple.pure _ (fun g s hs => ⟨hs.1, fun h => absurd rfl h⟩)
  | cons p r ih =>
    intro hi v
    unfold pkSendAll
    rw [hi p (by simp)]
    refine GTriple.bind ((sop_send c p.pkt p.sync v).weaken (fun g s hs => ⟨hs.1, hs.2.imp (fun h => h p rfl) id⟩) (fun a g s h => h)) fun v' => ?_
    cases r with
    | nil => exact GTriple.pure _ (fun g s hs => ⟨hs.1.1, fun _ => hs.2⟩)
    | cons q r =>
      exact (ih (fun x hx => hi x (by simp [hx])) v').weaken (fun g s hs => ⟨hs.1.1, .inr hs.1.2⟩) (fun a g s hs => ⟨hs.1, fun _ => hs.2 (by simp)⟩)

end CocotbBus
