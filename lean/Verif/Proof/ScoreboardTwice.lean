import Verif.Proof.Scoreboard

/-! # Monitors that are added to a scoreboard more than once -/

namespace CocotbBus
open Spec
variable {T : Type}

/-- one check: on one list, and without an error it has taken one element -/
theorem check_one (ops : TxnOps T) (info : MonInfo) (hname : info.name ≠ none) (i : Iface) (t : T) (sb : SB T) :
    let r := checkReceived ops info (.list i.ref) i.depth i.strict t sb
    r.1.expected = sb.expected ∧ sb.errors ≤ r.1.errors ∧ (∀ k, k ≠ i.ref → r.1.heap k = sb.heap k) ∧ (r.2 ≠ none → r.1.errors ≠ 0) ∧
    (r.1.errors = 0 → (sb.heap i.ref).length = (r.1.heap i.ref).length + 1) := by
  by_cases hE : sb.heap i.ref = []
  · obtain ⟨msg, hc⟩ := check_empty ops info hname i.ref i.depth i.strict t sb hE
    rw [hc]
    exact ⟨rfl, by simp, fun r _ => rfl, by simp, by simp⟩
  · obtain ⟨e, he, hc⟩ := check_nonempty ops info hname i.ref i.depth i.strict t sb hE
    rw [hc]
    have hlt := reorderIndex_lt ops i.depth (sb.heap i.ref) t hE
    by_cases ha : Accepts ops i.strict t e
    · rw [compare_accept _ _ _ _ _ ha]
      refine ⟨rfl, Nat.le_refl _, fun r hr => by simp [SB.setList, hr], by simp, ?_⟩
      intro _
      simp only
      rw [setList_heap, List.length_eraseIdx, if_pos hlt]
      omega
    · obtain ⟨msg, hm⟩ := compare_reject ops (sb.setList i.ref ((sb.heap i.ref).eraseIdx (reorderIndex ops i.depth (sb.heap i.ref) t))) t e i.strict ha
      rw [hm]
      exact ⟨rfl, by simp [SB.setList], fun r hr => by simp [SB.setList, hr], by simp, by simp⟩

theorem checks_all (ops : TxnOps T) (info : MonInfo) (hname : info.name ≠ none) (t : T) (l : List Iface) : ∀ sb : SB T, (l.map Iface.ref).Nodup →
    let r := runCallbacks (l.map (fun i => checkReceived ops info (.list i.ref) i.depth i.strict)) t sb
    r.1.expected = sb.expected ∧ sb.errors ≤ r.1.errors ∧ (∀ k, k ∉ l.map Iface.ref → r.1.heap k = sb.heap k) ∧
    (r.1.errors = 0 → ∀ i ∈ l, (sb.heap i.ref).length = (r.1.heap i.ref).length + 1) := by
  induction l with
  | nil => intro sb _; exact ⟨rfl, Nat.le_refl _, fun _ _ => rfl, fun _ _ h => by cases h⟩
  | cons j l ih =>
    intro sb hn
    simp only [List.map_cons, List.nodup_cons] at hn
    obtain ⟨c1, c2, c3, c4, c5⟩ := check_one ops info hname j t sb
    simp only [List.map_cons, runCallbacks]
    cases hc : checkReceived ops info (.list j.ref) j.depth j.strict t sb with
    | mk sb' e =>
      rw [hc] at c1 c2 c3 c4 c5
      cases e with
      | some e =>
        have hne : sb'.errors ≠ 0 := c4 (by simp)
        refine ⟨c1, c2, ?_, fun h => absurd h hne⟩
        intro k hk
        simp only [List.mem_cons, not_or] at hk
        exact c3 k hk.1
      | none =>
        obtain ⟨i1, i2, i3, i4⟩ := ih sb' hn.2
        refine ⟨i1.trans c1, Nat.le_trans c2 i2, ?_, ?_⟩
        · intro k hk
          simp only [List.mem_cons, not_or] at hk
          exact (i3 k hk.2).trans (c3 k hk.1)
        · intro h0 i hi
          have h0' : sb'.errors = 0 := Nat.le_zero.1 (by rw [← h0]; exact i2)
          rcases List.mem_cons.1 hi with rfl | hi
          · have := c5 h0'
            show (sb.heap i.ref).length = ((runCallbacks _ t sb').1.heap i.ref).length + 1
            rw [i3 i.ref hn.1]; exact this
          · have := i4 h0 i hi
            have hne : i.ref ≠ j.ref := fun e => hn.1 (e ▸ List.mem_map.2 ⟨i, hi, rfl⟩)
            rw [← c3 i.ref hne]; exact this

/-- the callbacks are those of the interfaces, in the order in which these were added -/
def WiredAll (ops : TxnOps T) (info : MonInfo) (ifs : List Iface) (w : World T) : Prop :=
  ∀ mid, (w.mons mid).callbacks = (ifs.filter (fun i => decide (i.mid = mid))).map (fun i => checkReceived ops info (.list i.ref) i.depth i.strict)

theorem receive_all (ops : TxnOps T) (info : MonInfo) (hname : info.name ≠ none) (ifs : List Iface) (href : (ifs.map Iface.ref).Nodup) (w : World T)
    (hw : WiredAll ops info ifs w) (mid : Nat) (t : T) :
    WiredAll ops info ifs (w.receive mid t).1 ∧ (w.receive mid t).1.sb.expected = w.sb.expected ∧ w.sb.errors ≤ (w.receive mid t).1.sb.errors ∧
    ((w.receive mid t).1.sb.errors = 0 → ∀ i ∈ ifs, (w.sb.heap i.ref).length = ((w.receive mid t).1.sb.heap i.ref).length + if mid = i.mid then 1 else 0) := by
  have hcb : ∀ m : Monitor T (SB T), ∀ sb : SB T, (m.recv t sb).1.callbacks = m.callbacks ∧ (m.recv t sb).2.1 = (runCallbacks m.callbacks t sb).1 := by
    intro m sb
    unfold Monitor.recv
    simp only
    cases hr : runCallbacks m.callbacks t sb with
    | mk a b =>
      cases b with
      | some e => exact ⟨rfl, rfl⟩
      | none => constructor <;> simp only <;> (try split) <;> (try split) <;> rfl
  have hmons : ∀ k, ((w.receive mid t).1.mons k).callbacks = (w.mons k).callbacks := by
    intro k
    unfold World.receive World.setMon
    simp only
    by_cases hk : k = mid
    · subst hk; simp [hcb]
    · simp [hk]
  have hsb : (w.receive mid t).1.sb = (runCallbacks (w.mons mid).callbacks t w.sb).1 := (hcb (w.mons mid) w.sb).2
  have hnd : ((ifs.filter (fun i => decide (i.mid = mid))).map Iface.ref).Nodup := List.Sublist.nodup (List.filter_sublist.map _) href
  obtain ⟨c1, c2, c3, c4⟩ := checks_all ops info hname t _ w.sb hnd
  rw [← hw mid, ← hsb] at c1 c2 c3 c4
  refine ⟨fun k => by rw [hmons]; exact hw k, c1, c2, ?_⟩
  intro h0 i hi
  by_cases hm : mid = i.mid
  · rw [if_pos hm]
    exact c4 h0 i (List.mem_filter.2 ⟨hi, by simp [hm]⟩)
  · rw [if_neg hm, c3 i.ref ?_, Nat.add_zero]
    intro hmem
    obtain ⟨j, hj, hji⟩ := List.mem_map.1 hmem
    obtain ⟨hj, hjm⟩ := List.mem_filter.1 hj
    have : j = i := eq_of_nodup_map Iface.ref ifs href j i hj hi hji
    subst this
    exact hm (by simpa using hjm : j.mid = mid).symm

theorem playSb_all (ops : TxnOps T) (info : MonInfo) (hname : info.name ≠ none) (ifs : List Iface) (href : (ifs.map Iface.ref).Nodup) (h : List (SbOp T)) : ∀ w : World T,
    WiredAll ops info ifs w →
    (playSb h w).sb.expected = w.sb.expected ∧ w.sb.errors ≤ (playSb h w).sb.errors ∧
    ((playSb h w).sb.errors = 0 → ∀ i ∈ ifs, ((playSb h w).sb.heap i.ref).length + delivered i.mid h = (w.sb.heap i.ref).length + added i.ref h) := by
  induction h with
  | nil => exact fun w _ => ⟨rfl, Nat.le_refl _, fun _ i _ => by simp [playSb, delivered, added]⟩
  | cons o r ih =>
    intro w hw
    cases o with
    | extend ref ts =>
      have hw' : WiredAll ops info ifs { w with sb := w.sb.setList ref (w.sb.heap ref ++ ts) } := hw
      obtain ⟨h1, h2, h3⟩ := ih _ hw'
      refine ⟨h1, h2, ?_⟩
      intro he i hi
      have := h3 he i hi
      simp only [playSb, delivered, added]
      rw [this]
      by_cases hr : ref = i.ref
      · subst hr; simp [SB.setList]; omega
      · have : ¬ i.ref = ref := fun e => hr e.symm
        simp [SB.setList, hr, this]
    | recv mid t =>
      obtain ⟨r1, r2, r3, r4⟩ := receive_all ops info hname ifs href w hw mid t
      obtain ⟨h1, h2, h3⟩ := ih _ r1
      refine ⟨h1.trans r2, Nat.le_trans r3 h2, ?_⟩
      intro he i hi
      have hbal := h3 he i hi
      have he1 : (w.receive mid t).1.sb.errors = 0 := Nat.le_zero.1 (by
        have : (playSb r (w.receive mid t).1).sb.errors = 0 := he
        rw [this] at h2; exact h2)
      have := r4 he1 i hi
      simp only [playSb, delivered, added]
      omega

theorem dictSet_new {α β : Type} [DecidableEq α] (d : List (α × β)) (k : α) (v : β) : (k, v) ∈ dictSet d k v := by
  induction d with
  | nil => simp [dictSet]
  | cons p d ih =>
    obtain ⟨k', v'⟩ := p
    rw [dictSet]
    by_cases h : k' = k
    · rw [if_pos h, h]; simp
    · rw [if_neg h]; exact List.mem_cons_of_mem _ ih

theorem dictSet_old {α β : Type} [DecidableEq α] (d : List (α × β)) (k k0 : α) (v v0 : β) (hne : k0 ≠ k) (h : (k0, v0) ∈ d) : (k0, v0) ∈ dictSet d k v := by
  induction d with
  | nil => cases h
  | cons p d ih =>
    obtain ⟨k', v'⟩ := p
    rw [dictSet]
    rcases List.mem_cons.1 h with h | h
    · obtain ⟨rfl, rfl⟩ := Prod.mk.inj h
      rw [if_neg hne]; simp
    · by_cases hk : k' = k
      · rw [if_pos hk]; exact List.mem_cons_of_mem _ h
      · rw [if_neg hk]; exact List.mem_cons_of_mem _ (ih h)

theorem addAll_all (ops : TxnOps T) (name : Option String) (ifs : List Iface) : ∀ (done : List Iface) (w : World T), WiredAll ops (busMonitor name) done w →
    WiredAll ops (busMonitor name) (done ++ ifs) (addAll ops (busMonitor name) ifs w) ∧ (addAll ops (busMonitor name) ifs w).sb.errors = w.sb.errors ∧
    (addAll ops (busMonitor name) ifs w).sb.heap = w.sb.heap ∧
    (∀ p ∈ w.sb.expected, p.1 ∉ ifs.map Iface.mid → p ∈ (addAll ops (busMonitor name) ifs w).sb.expected) ∧
    (∀ a i b, ifs = a ++ i :: b → i.mid ∉ b.map Iface.mid → (i.mid, .list i.ref) ∈ (addAll ops (busMonitor name) ifs w).sb.expected) := by
  induction ifs with
  | nil => exact fun done w h => ⟨by simpa [addAll] using h, rfl, rfl, fun p hp _ => hp, fun a i b h => by simp at h⟩
  | cons i r ih =>
    intro done w h
    obtain ⟨k1, k2, k3, k4, k5⟩ := ih (done ++ [i]) (w.addInterface ops i.mid (busMonitor name) (.list i.ref) .none i.depth i.strict).1 (by
      intro mid
      by_cases hm : mid = i.mid
      · subst hm
        have := h i.mid
        simp [World.addInterface, busMonitor, World.setMon, Monitor.addCallback, this, List.filter_append]
      · have hm' : ¬ i.mid = mid := fun e => hm e.symm
        have := h mid
        simp [World.addInterface, busMonitor, World.setMon, hm, hm', List.filter_append] at this ⊢
        exact this)
    have hexp : (w.addInterface ops i.mid (busMonitor name) (.list i.ref) .none i.depth i.strict).1.sb.expected = dictSet w.sb.expected i.mid (.list i.ref) := rfl
    refine ⟨by simpa [addAll] using k1, k2.trans rfl, k3.trans rfl, ?_, ?_⟩
    · intro p hp hm
      simp only [List.map_cons, List.mem_cons, not_or] at hm
      exact k4 p (by rw [hexp]; exact dictSet_old _ _ _ _ _ hm.1 hp) hm.2
    · intro a j b hab hj
      cases a with
      | nil =>
        simp only [List.nil_append, List.cons.injEq] at hab
        obtain ⟨rfl, rfl⟩ := hab
        exact k4 _ (by rw [hexp]; exact dictSet_new _ _ _) hj
      | cons x a =>
        simp only [List.cons_append, List.cons.injEq] at hab
        exact k5 a j b hab.2 hj

end CocotbBus
