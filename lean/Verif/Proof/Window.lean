import Verif.Spec.Window
import Verif.Proof.Online

/-! # A reordering window on expected output that is produced while the test runs -/

namespace CocotbBus
open Spec
variable {T : Type}

theorem Explained.nil_iff (d : Nat) (acc : T → T → Prop) (mid ref : Nat) (E : List T) : Explained d acc mid ref E [] ↔ E = [] := by
  constructor
  · intro h; cases h; rfl
  · rintro rfl; exact .done

theorem Explained.recv_iff (d : Nat) (acc : T → T → Prop) (mid ref : Nat) (E : List T) (t : T) (h : List (SbOp T)) :
    Explained d acc mid ref E (.recv mid t :: h) ↔
      ∃ pre e post, E = pre ++ e :: post ∧ pre.length ≤ d ∧ acc t e ∧ Explained d acc mid ref (pre ++ post) h := by
  constructor
  · intro hh
    cases hh with
    | take pre post e _ _ h1 h2 h3 => exact ⟨pre, e, post, rfl, h1, h2, h3⟩
    | otherMonitor _ _ _ _ hm => exact absurd rfl hm
  · rintro ⟨pre, e, post, rfl, h1, h2, h3⟩
    exact .take pre post e t h h1 h2 h3

theorem Explained.other_iff (d : Nat) (acc : T → T → Prop) (mid ref m : Nat) (hm : m ≠ mid) (E : List T) (t : T) (h : List (SbOp T)) :
    Explained d acc mid ref E (.recv m t :: h) ↔ Explained d acc mid ref E h := by
  constructor
  · intro hh
    cases hh with
    | take => exact absurd rfl hm
    | otherMonitor _ _ _ _ _ h => exact h
  · exact .otherMonitor m t E h hm

theorem Explained.extend_iff (d : Nat) (acc : T → T → Prop) (mid ref rf : Nat) (E ts : List T) (h : List (SbOp T)) :
    Explained d acc mid ref E (.extend rf ts :: h) ↔ Explained d acc mid ref (if rf = ref then E ++ ts else E) h := by
  constructor
  · intro hh
    cases hh with
    | add _ _ _ h => rw [if_pos rfl]; exact h
    | otherList _ _ _ _ hr h => rw [if_neg hr]; exact h
  · intro hh
    by_cases hr : rf = ref
    · subst hr; rw [if_pos rfl] at hh; exact .add ts E h hh
    · rw [if_neg hr] at hh; exact .otherList rf ts E h hr hh

/-- Of two acceptable values in the window, the earlier one may be taken in place of the later one. -/
theorem Explained.exchange (d : Nat) (acc : T → T → Prop) (mid ref : Nat) (h : List (SbOp T)) :
    ∀ (p1 p2 q : List T) (r r' : T), (∀ x, acc x r → acc x r') → p1.length + p2.length ≤ d →
      Explained d acc mid ref (p1 ++ r :: (p2 ++ q)) h → Explained d acc mid ref (p1 ++ p2 ++ r' :: q) h := by
  induction h with
  | nil =>
    intro p1 p2 q r r' _ _ h
    rw [Explained.nil_iff] at h
    simp at h
  | cons o h ih =>
    intro p1 p2 q r r' hr hd hh
    cases o with
    | extend rf ts =>
      rw [Explained.extend_iff] at hh ⊢
      by_cases hrf : rf = ref
      · rw [if_pos hrf] at hh ⊢
        have := ih p1 p2 (q ++ ts) r r' hr hd (by simpa using hh)
        simpa using this
      · rw [if_neg hrf] at hh ⊢
        exact ih p1 p2 q r r' hr hd hh
    | recv m g =>
      by_cases hm : m = mid
      · subst hm
        rw [Explained.recv_iff] at hh
        obtain ⟨pre, e, post, hE, hpre, hacc, rest⟩ := hh
        rcases List.append_eq_append_iff.1 hE with ⟨a, h1, h2⟩ | ⟨a, h1, h2⟩
        · cases a with
          | nil =>
            simp at h1 h2
            obtain ⟨h2, h3⟩ := h2
            subst h1 h2 h3
            have := Explained.take (d := d) (ref := ref) (_ ++ p2) q r' g h (by simpa using hd) (hr g hacc) (by simpa using rest)
            exact this
          | cons x a =>
            simp only [List.cons_append, List.cons.injEq] at h2
            obtain ⟨h2, h3⟩ := h2
            subst h2
            rcases List.append_eq_append_iff.1 h3 with ⟨c, h4, h5⟩ | ⟨c, h4, h5⟩
            · subst h4 h1 h5
              have hrest : Explained d acc m ref (p1 ++ r :: (p2 ++ (c ++ post))) h := by simpa using rest
              have := ih p1 p2 (c ++ post) r r' hr hd hrest
              have := Explained.take (d := d) (ref := ref) (p1 ++ p2 ++ r' :: c) post e g h (by simp at hpre ⊢; omega) hacc (by simpa using this)
              simpa using this
            · cases c with
              | nil =>
                simp at h4 h5
                subst h4 h1 h5
                have hrest : Explained d acc m ref (p1 ++ r :: (p2 ++ post)) h := by simpa using rest
                have := ih p1 p2 post r r' hr hd hrest
                have := Explained.take (d := d) (ref := ref) (p1 ++ p2 ++ [r']) post e g h (by simp at hpre ⊢; omega) hacc (by simpa using this)
                simpa using this
              | cons y c =>
                simp only [List.cons_append, List.cons.injEq] at h5
                obtain ⟨h5, h6⟩ := h5
                subst h5 h4 h1 h6
                have hrest : Explained d acc m ref (p1 ++ r :: ((a ++ c) ++ q)) h := by simpa using rest
                have := ih p1 (a ++ c) q r r' hr (by simp at hd ⊢; omega) hrest
                have := Explained.take (d := d) (ref := ref) (p1 ++ a) (c ++ r' :: q) e g h (by simp at hpre ⊢; omega) hacc (by simpa using this)
                simpa using this
        · cases a with
          | nil =>
            simp at h1 h2
            obtain ⟨h2, h3⟩ := h2
            subst h1 h2 h3
            have := Explained.take (d := d) (ref := ref) (p1 ++ p2) q r' g h (by simpa using hd) (hr g hacc) (by simpa using rest)
            exact this
          | cons x a =>
            simp only [List.cons_append, List.cons.injEq] at h2
            obtain ⟨h2, h3⟩ := h2
            subst h2 h3 h1
            have hrest : Explained d acc m ref ((pre ++ a) ++ r :: (p2 ++ q)) h := by simpa using rest
            have := ih (pre ++ a) p2 q r r' hr (by simp at hd ⊢; omega) hrest
            have := Explained.take (d := d) (ref := ref) pre (a ++ p2 ++ r' :: q) e g h hpre hacc (by simpa using this)
            simpa using this
      · rw [Explained.other_iff _ _ _ _ _ hm] at hh ⊢
        exact ih p1 p2 q r r' hr hd hh

/-- What the search of the scoreboard finds: the first acceptable value in the window, or nothing and index 0. -/
theorem window_split (ops : TxnOps T) (strict : Bool) (depth : Int) (hag : 0 < depth → Agrees ops strict) (e : T) (E : List T) (t : T) :
    (∃ pre x post, e :: E = pre ++ x :: post ∧ pre.length ≤ depth.toNat ∧ Accepts ops strict t x ∧ (∀ y ∈ pre, ¬ Accepts ops strict t y) ∧
      reorderIndex ops depth (e :: E) t = pre.length) ∨
    (reorderIndex ops depth (e :: E) t = 0 ∧ ∀ pre x post, e :: E = pre ++ x :: post → pre.length ≤ depth.toNat → ¬ Accepts ops strict t x) := by
  by_cases hd : 0 < depth
  · obtain ⟨hs, _, _⟩ := hag hd
    obtain ⟨d, rfl⟩ : ∃ d : Nat, depth = d := ⟨depth.toNat, by omega⟩
    rcases reorder_split ops d (e :: E) t with ⟨pre, x, post, h1, h2, h3, h4, h5⟩ | ⟨h5, h6⟩
    · refine .inl ⟨pre, x, post, h1, by simpa using h2, (hs x t).1 h3, fun y hy ha => ?_, h5⟩
      have := h4 y hy
      rw [(hs y t).2 ha] at this
      cases this
    · refine .inr ⟨h5, fun pre x post hE hl ha => ?_⟩
      have := h6 pre x post hE (by simpa using hl)
      rw [(hs x t).2 ha] at this
      cases this
  · have hz : depth.toNat = 0 := by omega
    have hi : reorderIndex ops depth (e :: E) t = 0 := by
      by_cases h0 : depth = 0
      · subst h0; exact reorderIndex_zero ops e E t
      · unfold reorderIndex
        have : (min (depth + 1) ((e :: E).length : Int)).toNat = 0 := by omega
        simp only [this, List.take_zero, List.findIdx?_nil]
    by_cases ha : Accepts ops strict t e
    · exact .inl ⟨[], e, E, rfl, by simp, ha, by simp, hi⟩
    · refine .inr ⟨hi, fun pre x post hE hl => ?_⟩
      rw [hz] at hl
      have : pre = [] := List.length_eq_zero_iff.1 (by omega)
      subst this
      injection hE with h1 h2
      rw [← h1]; exact ha

/-- a reception by an interface without recorded errors -/
theorem receive_window (ops : TxnOps T) (info : MonInfo) (hname : info.name ≠ none) (w : World T) (mid ref : Nat) (depth : Int) (strict : Bool)
    (hag : 0 < depth → Agrees ops strict) (t : T)
    (hcb : (w.mons mid).callbacks = [checkReceived ops info (.list ref) depth strict]) (h0 : w.sb.errors = 0) :
    (((w.receive mid t).1.sb.errors = 0 ∧ ∃ pre e post, w.sb.heap ref = pre ++ e :: post ∧ pre.length ≤ depth.toNat ∧ Accepts ops strict t e ∧
        (∀ x ∈ pre, ¬ Accepts ops strict t x) ∧ (w.receive mid t).1.sb.heap ref = pre ++ post) ∨
      ((w.receive mid t).1.sb.errors ≠ 0 ∧ ∀ pre e post, w.sb.heap ref = pre ++ e :: post → pre.length ≤ depth.toNat → ¬ Accepts ops strict t e)) ∧
    (∀ r, r ≠ ref → (w.receive mid t).1.sb.heap r = w.sb.heap r) := by
  have hrun : (w.receive mid t).1.sb = (checkReceived ops info (.list ref) depth strict t w.sb).1 := by
    rw [receive_sb, hcb]
    simp only [runCallbacks]
    cases hc : checkReceived ops info (.list ref) depth strict t w.sb with
    | mk a b => cases b <;> rfl
  rw [hrun]
  cases hE : w.sb.heap ref with
  | nil =>
    obtain ⟨msg, hc⟩ := check_empty ops info hname ref depth strict t w.sb hE
    rw [hc]
    refine ⟨.inr ⟨by simp, fun pre e post h => by simp at h⟩, fun r _ => rfl⟩
  | cons e E =>
    obtain ⟨e', he, hc⟩ := check_nonempty ops info hname ref depth strict t w.sb (by rw [hE]; simp)
    rw [hE] at he hc
    rw [hc]
    rcases window_split ops strict depth hag e E t with ⟨pre, x, post, h1, h2, h3, h4, h5⟩ | ⟨h5, h6⟩
    · rw [h5, h1] at he
      have hx : x = e' := by simpa using he
      subst hx
      rw [compare_accept _ _ _ _ _ h3, h5, h1]
      refine ⟨.inl ⟨h0, pre, x, post, rfl, h2, h3, h4, ?_⟩, fun r hr => by simp [SB.setList, hr]⟩
      rw [setList_heap, List.eraseIdx_append_of_length_le (Nat.le_refl _)]
      simp
    · rw [h5] at he
      have hx : e = e' := by simpa using he
      subst hx
      have hrej := h6 [] e E rfl (Nat.zero_le _)
      obtain ⟨msg, hm⟩ := compare_reject ops (w.sb.setList ref ((e :: E).eraseIdx (reorderIndex ops depth (e :: E) t))) t e strict hrej
      rw [hm]
      exact ⟨.inr ⟨by simp, h6⟩, fun r hr => by simp [SB.setList, hr]⟩

/-- the first acceptable value in the window may be taken -/
theorem Explained.greedy (d : Nat) (acc : T → T → Prop) (hsymm : 0 < d → ∀ a b, acc a b → acc b a) (htrans : 0 < d → ∀ a b c, acc a b → acc b c → acc a c)
    (mid ref : Nat) (h : List (SbOp T)) (t : T) (pre post : List T) (e : T) (hpre : pre.length ≤ d) (hacc : acc t e) (hfirst : ∀ x ∈ pre, ¬ acc t x) :
    Explained d acc mid ref (pre ++ e :: post) (.recv mid t :: h) ↔ Explained d acc mid ref (pre ++ post) h := by
  constructor
  · intro hh
    rw [Explained.recv_iff] at hh
    obtain ⟨pre2, e2, post2, hg, hpre2, hacc2, rest⟩ := hh
    rcases List.append_eq_append_iff.1 hg with ⟨a, g1, g2⟩ | ⟨a, g1, g2⟩
    · cases a with
      | nil => simp at g1 g2; rw [g1, ← g2.2] at rest; exact rest
      | cons x a =>
        simp only [List.cons_append, List.cons.injEq] at g2
        obtain ⟨g2, g3⟩ := g2
        subst g2 g3 g1
        have hd : 0 < d := by simp at hpre2; omega
        have := Explained.exchange d acc mid ref h pre a post2 e e2
          (fun x hx => htrans hd x e e2 hx (htrans hd e t e2 (hsymm hd _ _ hacc) hacc2))
          (by simp at hpre2; omega) (by simpa using rest)
        simpa using this
    · cases a with
      | nil => simp at g1 g2; rw [← g1, g2.2] at rest; exact rest
      | cons x a =>
        simp only [List.cons_append, List.cons.injEq] at g2
        obtain ⟨g2, g3⟩ := g2
        subst g2 g1
        exact absurd hacc2 (hfirst e2 (by simp))
  · intro hh; exact .take pre post e t h hpre hacc hh

theorem playSb_explained (ops : TxnOps T) (info : MonInfo) (hname : info.name ≠ none) (ifs : List Iface)
    (hmid : (ifs.map Iface.mid).Nodup) (href : (ifs.map Iface.ref).Nodup) (hag : ∀ i ∈ ifs, 0 < i.depth → Agrees ops i.strict) (h : List (SbOp T)) :
    ∀ (w : World T), Wired ops info ifs w → w.sb.errors = 0 →
    (((playSb h w).sb.errors = 0 ∧ ∀ i ∈ ifs, (playSb h w).sb.heap i.ref = []) ↔
      ∀ i ∈ ifs, Explained i.depth.toNat (Accepts ops i.strict) i.mid i.ref (w.sb.heap i.ref) h) := by
  induction h with
  | nil => intro w hw h0; simp [playSb, Explained.nil_iff, h0]
  | cons o r ih =>
    intro w hw h0
    cases o with
    | extend ref ts =>
      have hw' : Wired ops info ifs { w with sb := w.sb.setList ref (w.sb.heap ref ++ ts) } := hw
      have := ih _ hw' h0
      rw [show playSb (.extend ref ts :: r) w = playSb r { w with sb := w.sb.setList ref (w.sb.heap ref ++ ts) } from rfl, this]
      refine forall_congr' fun i => forall_congr' fun hi => ?_
      rw [Explained.extend_iff]
      show Explained _ _ _ _ (if i.ref = ref then w.sb.heap ref ++ ts else w.sb.heap i.ref) r ↔ _
      by_cases hr : ref = i.ref
      · subst hr; simp
      · rw [if_neg hr, if_neg (fun e => hr e.symm)]
    | recv mid t =>
      obtain ⟨r1, r2, r3, r4, r5⟩ := receive_wired ops info hname ifs w hw mid t
      rw [show playSb (.recv mid t :: r) w = playSb r (w.receive mid t).1 from rfl]
      by_cases hm : mid ∈ ifs.map Iface.mid
      · obtain ⟨j, hj, hjm⟩ := List.mem_map.1 hm
        have hcb := hw.1 j hj
        rw [hjm] at hcb
        obtain ⟨o1, o3⟩ := receive_window ops info hname w mid j.ref j.depth j.strict (hag j hj) t hcb h0
        have hother : ∀ i ∈ ifs, i ≠ j → mid ≠ i.mid ∧ i.ref ≠ j.ref := by
          intro i hi hij
          exact ⟨fun e => hij (eq_of_nodup_map Iface.mid ifs hmid i j hi hj (by rw [hjm]; exact e.symm)), fun e => hij (eq_of_nodup_map Iface.ref ifs href i j hi hj e)⟩
        rcases o1 with ⟨he, pre, e, post, hE, hpre, hacc, hfirst, hE'⟩ | ⟨he, hno⟩
        · rw [ih _ r1 he]
          refine forall_congr' fun i => forall_congr' fun hi => ?_
          by_cases hij : i = j
          · subst hij
            rw [hE', hE, ← hjm]
            have hsy : 0 < i.depth.toNat → 0 < i.depth := by omega
            exact (Explained.greedy _ _ (fun hd => (hag i hi (hsy hd)).symm) (fun hd => (hag i hi (hsy hd)).trans) _ _ r t pre post e hpre hacc hfirst).symm
          · obtain ⟨n1, n2⟩ := hother i hi hij
            rw [o3 i.ref n2, Explained.other_iff _ _ _ _ _ n1]
        · constructor
          · rintro ⟨h1, _⟩
            have := (playSb_balance ops info hname ifs href r _ r1).2.1
            omega
          · intro h
            have := h j hj
            rw [← hjm, Explained.recv_iff] at this
            obtain ⟨pre, e, post, h1, h2, h3, _⟩ := this
            exact absurd h3 (hno pre e post h1 h2)
      · have hs := r4 hm
        rw [ih _ r1 (by rw [hs]; exact h0), hs]
        refine forall_congr' fun i => forall_congr' fun hi => ?_
        have : mid ≠ i.mid := fun e => hm (e ▸ List.mem_map.2 ⟨i, hi, rfl⟩)
        rw [Explained.other_iff _ _ _ _ _ this]

/-! ### Consequences -/

theorem Explained.mono {d d' : Nat} (hd : d ≤ d') {acc : T → T → Prop} {mid ref : Nat} {E : List T} {h : List (SbOp T)}
    (hh : Explained d acc mid ref E h) : Explained d' acc mid ref E h := by
  induction hh with
  | done => exact .done
  | take pre post e got h hpre hacc _ ih => exact .take pre post e got h (Nat.le_trans hpre hd) hacc ih
  | otherMonitor m t E h hm _ ih => exact .otherMonitor m t E h hm ih
  | add ts E h _ ih => exact .add ts E h ih
  | otherList rf ts E h hr _ ih => exact .otherList rf ts E h hr ih

theorem Explained.perm {d : Nat} {acc : T → T → Prop} (hacc : ∀ a b, acc a b → a = b) {mid ref : Nat} {E : List T} {h : List (SbOp T)}
    (hh : Explained d acc mid ref E h) : (receivedOf mid h).Perm (E ++ addedTo ref h) := by
  induction hh with
  | done => exact .refl _
  | take pre post e got h _ ha _ ih =>
    have := hacc _ _ ha
    subst this
    simp only [receivedOf, if_true, addedTo]
    refine (List.Perm.cons got ih).trans ?_
    simpa using (List.perm_middle (a := got) (l₁ := pre) (l₂ := post ++ addedTo ref h)).symm
  | otherMonitor m t E h hm _ ih => simpa only [receivedOf, if_neg hm, addedTo] using ih
  | add ts E h _ ih => simpa only [receivedOf, if_true, addedTo, List.append_assoc] using ih
  | otherList rf ts E h hr _ ih => simpa only [receivedOf, if_neg hr, addedTo] using ih

theorem Explained.inTime {d : Nat} {acc : T → T → Prop} {mid ref : Nat} {E : List T} {h : List (SbOp T)}
    (hh : Explained d acc mid ref E h) : InTime E mid ref h := by
  induction hh with
  | done => intro p t q h; cases p <;> cases h
  | take pre post e got h _ _ _ ih =>
    intro p t q e'
    cases p with
    | nil => simp [receivedOf]; omega
    | cons x p =>
      injection e' with e1 e2
      subst e1
      have := ih p t q e2
      simp only [receivedOf, addedTo, if_true, List.length_cons, List.length_append] at this ⊢
      omega
  | otherMonitor m t E h hm _ ih =>
    intro p u q e
    cases p with
    | nil => injection e with e1; injection e1 with e1; exact absurd e1 hm
    | cons x p =>
      injection e with e1 e2
      subst e1
      simpa only [receivedOf, addedTo, if_neg hm] using ih p u q e2
  | add ts E h _ ih =>
    intro p t q e
    cases p with
    | nil => cases e
    | cons x p =>
      injection e with e1 e2
      subst e1
      have := ih p t q e2
      simp only [receivedOf, addedTo, if_true, List.length_append] at this ⊢
      omega
  | otherList rf ts E h hr _ ih =>
    intro p t q e
    cases p with
    | nil => cases e
    | cons x p =>
      injection e with e1 e2
      subst e1
      simpa only [receivedOf, addedTo, if_neg hr] using ih p t q e2

/-! ### Reference models -/

theorem explained_io (d : Nat) (acc : T → T → Prop) (outMon ref : Nat) (f : T → T) (h : List (IoOp T)) : ∀ (b : Bool) (E : List T),
    Explained d acc outMon ref E (asSb outMon ref f b h) ↔ ExplainedIo d acc f (!b) E h := by
  induction h with
  | nil =>
    intro b E
    rw [show asSb outMon ref f b [] = [] by cases b <;> rfl, Explained.nil_iff]
    constructor
    · rintro rfl; exact .done _
    · intro hh; generalize (!b) = on at hh; cases hh; rfl
  | cons o h ih =>
    intro b E
    cases o with
    | stop =>
      rw [show asSb outMon ref f b (.stop :: h) = asSb outMon ref f true h by cases b <;> rfl, ih true E]
      exact ⟨fun hh => .stop _ _ _ hh, fun hh => by generalize (!b) = on at hh; cases hh; assumption⟩
    | output t =>
      rw [show asSb outMon ref f b (.output t :: h) = .recv outMon t :: asSb outMon ref f b h by cases b <;> rfl, Explained.recv_iff]
      constructor
      · rintro ⟨pre, e, post, rfl, h1, h2, h3⟩
        exact .output _ pre post e t h h1 h2 ((ih b _).1 h3)
      · intro hh
        have ih' := fun E => (ih b E).2
        generalize (!b) = on at hh ih'
        cases hh with
        | output _ pre post e _ _ h1 h2 h3 => exact ⟨pre, e, post, rfl, h1, h2, ih' _ h3⟩
    | input t =>
      cases b with
      | true =>
        rw [show asSb outMon ref f true (.input t :: h) = asSb outMon ref f true h from rfl, ih true E]
        exact ⟨fun hh => .ignored _ _ _ hh, fun hh => by cases hh; assumption⟩
      | false =>
        rw [show asSb outMon ref f false (.input t :: h) = .extend ref [f t] :: asSb outMon ref f false h from rfl, Explained.extend_iff, if_pos rfl, ih false _]
        exact ⟨fun hh => .input _ _ _ hh, fun hh => by cases hh; assumption⟩

/-- expected values that are all there at the start -/
theorem explained_static (d : Nat) (acc : T → T → Prop) (mid ref : Nat) (R : List T) : ∀ E : List T,
    Explained d acc mid ref E (R.map (.recv mid)) ↔ Reorders d acc E R := by
  induction R with
  | nil =>
    intro E
    rw [List.map_nil, Explained.nil_iff]
    exact ⟨fun h => by subst h; exact .nil, fun h => by cases h; rfl⟩
  | cons t R ih =>
    intro E
    rw [List.map_cons, Explained.recv_iff]
    constructor
    · rintro ⟨pre, e, post, rfl, h1, h2, h3⟩
      exact .take pre post e t R h1 h2 ((ih _).1 h3)
    · intro hh
      cases hh with
      | take pre post e _ _ h1 h2 h3 => exact ⟨pre, e, post, rfl, h1, h2, (ih _).2 h3⟩

end CocotbBus
