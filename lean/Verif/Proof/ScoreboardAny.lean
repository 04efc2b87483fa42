import Verif.Proof.ScoreboardTwice
import Verif.Spec.Online

/-! # Scoreboards with expected lists and functions, and monitors that are added more than once -/

namespace CocotbBus
open Spec
variable {T : Type}

/-- what an interface without an error has done to the lists and with the transaction -/
def anyDone (ops : TxnOps T) (t : T) (old new : SB T) (i : AnyIface T) : Prop := match i.exp with
  | .list ref => (old.heap ref).length = (new.heap ref).length + 1
  | .fn f => Accepts ops i.strict t (f t)

theorem check_any (ops : TxnOps T) (info : MonInfo) (hname : info.name ≠ none) (i : AnyIface T) (t : T) (sb : SB T) :
    let r := checkReceived ops info i.exp i.depth i.strict t sb
    r.1.expected = sb.expected ∧ sb.errors ≤ r.1.errors ∧ (∀ k, k ∉ listsOf [i] → r.1.heap k = sb.heap k) ∧ (r.2 ≠ none → r.1.errors ≠ 0) ∧
    (r.1.errors = 0 → anyDone ops t sb r.1 i) := by
  obtain ⟨mid, exp, depth, strict⟩ := i
  cases exp with
  | list ref =>
    obtain ⟨c1, c2, c3, c4, c5⟩ := check_one ops info hname ⟨mid, ref, depth, strict⟩ t sb
    exact ⟨c1, c2, fun k hk => c3 k (by simpa [listsOf] using hk), c4, c5⟩
  | fn f =>
    have hc : checkReceived ops info (.fn f) depth strict t sb = sb.compare ops t (f t) strict := by
      unfold checkReceived
      cases hn : info.name with
      | none => exact absurd hn hname
      | some nm => rfl
    simp only [hc]
    by_cases ha : Accepts ops strict t (f t)
    · rw [compare_accept _ _ _ _ _ ha]
      exact ⟨rfl, Nat.le_refl _, fun _ _ => rfl, by simp, fun _ => ha⟩
    · obtain ⟨msg, hm⟩ := compare_reject ops sb t (f t) strict ha
      rw [hm]
      exact ⟨rfl, by simp, fun _ _ => rfl, by simp, by simp⟩

theorem listsOf_cons (i : AnyIface T) (l : List (AnyIface T)) : listsOf (i :: l) = listsOf [i] ++ listsOf l := by
  unfold listsOf
  rw [← List.filterMap_append]; rfl

theorem mem_listsOf {l : List (AnyIface T)} {k : Nat} : k ∈ listsOf l ↔ ∃ i ∈ l, i.exp = .list k := by
  unfold listsOf
  rw [List.mem_filterMap]
  constructor
  · rintro ⟨i, hi, h⟩
    refine ⟨i, hi, ?_⟩
    cases he : i.exp with
    | list ref => rw [he] at h; simp only [Option.some.injEq] at h; rw [h]
    | fn f => rw [he] at h; cases h
  · rintro ⟨i, hi, h⟩
    exact ⟨i, hi, by rw [h]⟩

theorem listsOf_unique {l : List (AnyIface T)} (hn : (listsOf l).Nodup) {i j : AnyIface T} (hi : i ∈ l) (hj : j ∈ l) {k : Nat} (h1 : i.exp = .list k) (h2 : j.exp = .list k) : i = j := by
  induction l with
  | nil => cases hi
  | cons a l ih =>
    rw [listsOf_cons, List.nodup_append] at hn
    have out : ∀ x ∈ l, x.exp = .list k → a.exp = .list k → False := fun x hx hxk hak =>
      hn.2.2 k (mem_listsOf.2 ⟨a, by simp, hak⟩) k (mem_listsOf.2 ⟨x, hx, hxk⟩) rfl
    rcases List.mem_cons.1 hi with rfl | hi <;> rcases List.mem_cons.1 hj with rfl | hj
    · rfl
    · exact absurd h1 (fun h => out j hj h2 h)
    · exact absurd h2 (fun h => out i (by assumption) h1 h)
    · exact ih hn.2.1 hi hj

theorem checks_any (ops : TxnOps T) (info : MonInfo) (hname : info.name ≠ none) (t : T) (l : List (AnyIface T)) : ∀ sb : SB T, (listsOf l).Nodup →
    let r := runCallbacks (l.map (fun i => checkReceived ops info i.exp i.depth i.strict)) t sb
    r.1.expected = sb.expected ∧ sb.errors ≤ r.1.errors ∧ (∀ k, k ∉ listsOf l → r.1.heap k = sb.heap k) ∧
    (r.1.errors = 0 → ∀ i ∈ l, anyDone ops t sb r.1 i) := by
  induction l with
  | nil => intro sb _; exact ⟨rfl, Nat.le_refl _, fun _ _ => rfl, fun _ _ h => by cases h⟩
  | cons j l ih =>
    intro sb hn
    rw [listsOf_cons, List.nodup_append] at hn
    obtain ⟨c1, c2, c3, c4, c5⟩ := check_any ops info hname j t sb
    simp only [List.map_cons, runCallbacks]
    cases hc : checkReceived ops info j.exp j.depth j.strict t sb with
    | mk sb' e =>
      rw [hc] at c1 c2 c3 c4 c5
      have split : ∀ k, k ∉ listsOf (j :: l) → k ∉ listsOf [j] ∧ k ∉ listsOf l := by
        intro k hk
        rw [listsOf_cons, List.mem_append, not_or] at hk
        exact hk
      cases e with
      | some e =>
        have hne : sb'.errors ≠ 0 := c4 (by simp)
        exact ⟨c1, c2, fun k hk => c3 k (split k hk).1, fun h => absurd h hne⟩
      | none =>
        obtain ⟨i1, i2, i3, i4⟩ := ih sb' hn.2.1
        refine ⟨i1.trans c1, Nat.le_trans c2 i2, fun k hk => (i3 k (split k hk).2).trans (c3 k (split k hk).1), ?_⟩
        intro h0 i hi
        have h0' : sb'.errors = 0 := Nat.le_zero.1 (by rw [← h0]; exact i2)
        rcases List.mem_cons.1 hi with rfl | hi
        · have := c5 h0'
          unfold anyDone at this ⊢
          cases he : i.exp with
          | fn f => rw [he] at this; exact this
          | list ref =>
            rw [he] at this
            have hnl : ref ∉ listsOf l := fun h => hn.2.2 ref (mem_listsOf.2 ⟨i, by simp, he⟩) ref h rfl
            simp only at this ⊢
            rw [i3 ref hnl]; exact this
        · have := i4 h0 i hi
          unfold anyDone at this ⊢
          cases he : i.exp with
          | fn f => rw [he] at this; exact this
          | list ref =>
            rw [he] at this
            have hnj : ref ∉ listsOf [j] := fun h => hn.2.2 ref h ref (mem_listsOf.2 ⟨i, hi, he⟩) rfl
            simp only at this ⊢
            rw [← c3 ref hnj]; exact this

/-- the callbacks are those of the interfaces, in the order in which these were added -/
def WiredAny (ops : TxnOps T) (info : MonInfo) (ifs : List (AnyIface T)) (w : World T) : Prop :=
  ∀ mid, (w.mons mid).callbacks = (ifs.filter (fun i => decide (i.mid = mid))).map (fun i => checkReceived ops info i.exp i.depth i.strict)

theorem receive_any (ops : TxnOps T) (info : MonInfo) (hname : info.name ≠ none) (ifs : List (AnyIface T)) (href : (listsOf ifs).Nodup) (w : World T)
    (hw : WiredAny ops info ifs w) (mid : Nat) (t : T) :
    WiredAny ops info ifs (w.receive mid t).1 ∧ (w.receive mid t).1.sb.expected = w.sb.expected ∧ w.sb.errors ≤ (w.receive mid t).1.sb.errors ∧
    ((w.receive mid t).1.sb.errors = 0 → ∀ i ∈ ifs, match i.exp with
      | .list ref => (w.sb.heap ref).length = ((w.receive mid t).1.sb.heap ref).length + if mid = i.mid then 1 else 0
      | .fn f => mid = i.mid → Accepts ops i.strict t (f t)) := by
  have hcb : ∀ m : Monitor T (SB T), ∀ sb : SB T, (m.recv t sb).1.callbacks = m.callbacks ∧ (m.recv t sb).2.1 = (runCallbacks m.callbacks t sb).1 := by
    intro m sb
    unfold Monitor.recv
    simp only
    cases hr : runCallbacks m.callbacks t sb with
    | mk a b =>
      cases b with
      | some e => exact ⟨rfl, rfl⟩
      | none => constructor <;> simp only <;> (try split) <;> (try split) <;> rfl
  have hmons : ∀ k, ((w.receive mid t).1.mons k).callbacks = (w.mons k).callbacks := by
    intro k
    unfold World.receive World.setMon
    simp only
    by_cases hk : k = mid
    · subst hk; simp [hcb]
    · simp [hk]
  have hsb : (w.receive mid t).1.sb = (runCallbacks (w.mons mid).callbacks t w.sb).1 := (hcb (w.mons mid) w.sb).2
  have hnd : (listsOf (ifs.filter (fun i => decide (i.mid = mid)))).Nodup := List.Sublist.nodup (List.filter_sublist.filterMap _) href
  obtain ⟨c1, c2, c3, c4⟩ := checks_any ops info hname t _ w.sb hnd
  rw [← hw mid, ← hsb] at c1 c2 c3 c4
  refine ⟨fun k => by rw [hmons]; exact hw k, c1, c2, ?_⟩
  intro h0 i hi
  have hin : mid = i.mid → anyDone ops t w.sb (w.receive mid t).1.sb i := fun hm => c4 h0 i (List.mem_filter.2 ⟨hi, by simp [hm]⟩)
  cases he : i.exp with
  | fn f =>
    intro hm
    have := hin hm
    unfold anyDone at this
    rw [he] at this; exact this
  | list ref =>
    simp only
    by_cases hm : mid = i.mid
    · have := hin hm
      unfold anyDone at this
      rw [he] at this
      rw [if_pos hm]; exact this
    · rw [if_neg hm, c3 ref ?_, Nat.add_zero]
      intro hmem
      obtain ⟨j, hj, hje⟩ := mem_listsOf.1 hmem
      obtain ⟨hj, hjm⟩ := List.mem_filter.1 hj
      have : j = i := listsOf_unique href hj hi hje he
      subst this
      exact hm (by simpa using hjm : j.mid = mid).symm

theorem playSb_any (ops : TxnOps T) (info : MonInfo) (hname : info.name ≠ none) (ifs : List (AnyIface T)) (href : (listsOf ifs).Nodup) (h : List (SbOp T)) : ∀ w : World T,
    WiredAny ops info ifs w →
    (playSb h w).sb.expected = w.sb.expected ∧ w.sb.errors ≤ (playSb h w).sb.errors ∧
    ((playSb h w).sb.errors = 0 → ∀ i ∈ ifs, match i.exp with
      | .list ref => ((playSb h w).sb.heap ref).length + delivered i.mid h = (w.sb.heap ref).length + added ref h
      | .fn f => ∀ t ∈ receivedOf i.mid h, Accepts ops i.strict t (f t)) := by
  induction h with
  | nil =>
    refine fun w _ => ⟨rfl, Nat.le_refl _, fun _ i _ => ?_⟩
    cases i.exp with
    | list ref => simp [playSb, delivered, added]
    | fn f => simp [receivedOf]
  | cons o r ih =>
    intro w hw
    cases o with
    | extend ref ts =>
      have hw' : WiredAny ops info ifs { w with sb := w.sb.setList ref (w.sb.heap ref ++ ts) } := hw
      obtain ⟨h1, h2, h3⟩ := ih _ hw'
      refine ⟨h1, h2, ?_⟩
      intro he i hi
      have := h3 he i hi
      cases hx : i.exp with
      | fn f => rw [hx] at this; exact this
      | list rf =>
        rw [hx] at this
        simp only [playSb, delivered, added] at this ⊢
        rw [this]
        by_cases hr : ref = rf
        · subst hr; simp [SB.setList]; omega
        · have : ¬ rf = ref := fun e => hr e.symm
          simp [SB.setList, hr, this]
    | recv mid t =>
      obtain ⟨r1, r2, r3, r4⟩ := receive_any ops info hname ifs href w hw mid t
      obtain ⟨h1, h2, h3⟩ := ih _ r1
      refine ⟨h1.trans r2, Nat.le_trans r3 h2, ?_⟩
      intro he i hi
      have hbal := h3 he i hi
      have he1 : (w.receive mid t).1.sb.errors = 0 := Nat.le_zero.1 (by
        have : (playSb r (w.receive mid t).1).sb.errors = 0 := he
        rw [this] at h2; exact h2)
      have := r4 he1 i hi
      cases hx : i.exp with
      | fn f =>
        rw [hx] at this hbal
        intro u hu
        simp only [receivedOf] at hu
        by_cases hm : mid = i.mid
        · rw [if_pos hm] at hu
          rcases List.mem_cons.1 hu with rfl | hu
          · exact this hm
          · exact hbal u hu
        · rw [if_neg hm] at hu
          exact hbal u hu
      | list rf =>
        rw [hx] at this hbal
        simp only [playSb, delivered, added] at this hbal ⊢
        omega

theorem addAny_all (ops : TxnOps T) (name : Option String) (ifs : List (AnyIface T)) : ∀ (done : List (AnyIface T)) (w : World T), WiredAny ops (busMonitor name) done w →
    WiredAny ops (busMonitor name) (done ++ ifs) (addAny ops (busMonitor name) ifs w) ∧ (addAny ops (busMonitor name) ifs w).sb.heap = w.sb.heap ∧
    (∀ p ∈ w.sb.expected, p.1 ∉ ifs.map AnyIface.mid → p ∈ (addAny ops (busMonitor name) ifs w).sb.expected) ∧
    (∀ a i b, ifs = a ++ i :: b → i.mid ∉ b.map AnyIface.mid → (i.mid, i.exp) ∈ (addAny ops (busMonitor name) ifs w).sb.expected) := by
  induction ifs with
  | nil => exact fun done w h => ⟨by simpa [addAny] using h, rfl, fun p hp _ => hp, fun a i b h => by simp at h⟩
  | cons i r ih =>
    intro done w h
    obtain ⟨k1, k3, k4, k5⟩ := ih (done ++ [i]) (w.addInterface ops i.mid (busMonitor name) i.exp .none i.depth i.strict).1 (by
      intro mid
      by_cases hm : mid = i.mid
      · subst hm
        have := h i.mid
        simp [World.addInterface, busMonitor, World.setMon, Monitor.addCallback, this, List.filter_append]
      · have hm' : ¬ i.mid = mid := fun e => hm e.symm
        have := h mid
        simp [World.addInterface, busMonitor, World.setMon, hm, hm', List.filter_append] at this ⊢
        exact this)
    have hexp : (w.addInterface ops i.mid (busMonitor name) i.exp .none i.depth i.strict).1.sb.expected = dictSet w.sb.expected i.mid i.exp := rfl
    refine ⟨by simpa [addAny] using k1, k3.trans rfl, ?_, ?_⟩
    · intro p hp hm
      simp only [List.map_cons, List.mem_cons, not_or] at hm
      exact k4 p (by rw [hexp]; exact dictSet_old _ _ _ _ _ hm.1 hp) hm.2
    · intro a j b hab hj
      cases a with
      | nil =>
        simp only [List.nil_append, List.cons.injEq] at hab
        obtain ⟨rfl, rfl⟩ := hab
        exact k4 _ (by rw [hexp]; exact dictSet_new _ _ _) hj
      | cons x a =>
        simp only [List.cons_append, List.cons.injEq] at hab
        exact k5 a j b hab.2 hj

end CocotbBus
