import Verif.Spec.Scoreboard
import Verif.Proof.Bus

/-! Lemmas about `Verif.Model.Scoreboard`. -/

namespace CocotbBus
open Spec
variable {T : Type}

theorem compare_accept (ops : TxnOps T) (sb : SB T) (got exp : T) (strict : Bool) (h : Accepts ops strict got exp) :
    sb.compare ops got exp strict = (sb, none) := by
  cases strict
  · simp only [Accepts, Bool.false_eq_true, if_false] at h
    simp [SB.compare, h]
  · simp only [Accepts, if_true] at h
    simp [SB.compare, h.1, h.2]

theorem compare_reject (ops : TxnOps T) (sb : SB T) (got exp : T) (strict : Bool) (h : ¬ Accepts ops strict got exp) :
    ∃ msg, sb.compare ops got exp strict = ({ sb with errors := sb.errors + 1 }, if sb.imm then some (.assertion msg) else none) := by
  cases strict
  · simp only [Accepts, Bool.false_eq_true, if_false] at h
    exact ⟨_, by simp [SB.compare, h, SB.fail]; rfl⟩
  · simp only [Accepts, if_true] at h
    by_cases ht : ops.ty got = ops.ty exp
    · have he : ops.eq got exp = false := by
        cases hh : ops.eq got exp
        · rfl
        · exact absurd ⟨ht, hh⟩ h
      exact ⟨_, by simp [SB.compare, ht, he, SB.fail]; rfl⟩
    · exact ⟨_, by simp [SB.compare, ht, SB.fail]; rfl⟩

/-- The window length for a natural depth. -/
theorem window_nat (d : Nat) (n : Nat) : (min ((d : Int) + 1) (n : Int)).toNat = min (d + 1) n := by
  omega

theorem reorderIndex_lt (ops : TxnOps T) (depth : Int) (l : List T) (t : T) (hl : l ≠ []) :
    reorderIndex ops depth l t < l.length := by
  unfold reorderIndex
  simp only
  split
  · rename_i i hi
    obtain ⟨h, -⟩ := List.findIdx?_eq_some_iff_getElem.1 hi
    simp only [List.length_take] at h
    omega
  · exact List.length_pos_iff.2 hl

/-- The callback on an empty list. -/
theorem check_empty (ops : TxnOps T) (info : MonInfo) (hname : info.name ≠ none) (ref : Nat) (depth : Int) (strict : Bool)
    (t : T) (sb : SB T) (h : sb.heap ref = []) :
    ∃ msg, checkReceived ops info (.list ref) depth strict t sb =
      ({ sb with errors := sb.errors + 1 }, if sb.imm then some (.assertion msg) else none) := by
  unfold checkReceived
  cases hn : info.name with
  | none => exact absurd hn hname
  | some nm => exact ⟨_, by simp [h, SB.fail]; rfl⟩

/-- The callback on a non-empty list. -/
theorem check_nonempty (ops : TxnOps T) (info : MonInfo) (hname : info.name ≠ none) (ref : Nat) (depth : Int) (strict : Bool)
    (t : T) (sb : SB T) (h : sb.heap ref ≠ []) :
    ∃ e, (sb.heap ref)[reorderIndex ops depth (sb.heap ref) t]? = some e ∧
      checkReceived ops info (.list ref) depth strict t sb =
        (sb.setList ref ((sb.heap ref).eraseIdx (reorderIndex ops depth (sb.heap ref) t))).compare ops t e strict := by
  have hlt := reorderIndex_lt ops depth _ t h
  refine ⟨_, List.getElem?_eq_getElem hlt, ?_⟩
  unfold checkReceived
  cases hn : info.name with
  | none => exact absurd hn hname
  | some nm =>
    simp only
    rw [if_pos (by simpa using h), List.getElem?_eq_getElem hlt]

/-- Depth 0 always takes the first element. -/
theorem reorderIndex_zero (ops : TxnOps T) (e : T) (l : List T) (t : T) : reorderIndex ops 0 (e :: l) t = 0 := by
  unfold reorderIndex
  have : (min ((0 : Int) + 1) ((e :: l).length : Int)).toNat = 1 := by simp; omega
  simp only [this, List.take_succ_cons, List.take_zero]
  by_cases h : ops.eq e t <;> simp [List.findIdx?_cons, h]

theorem setList_heap (sb : SB T) (ref : Nat) (l : List T) : (sb.setList ref l).heap ref = l := by
  simp [SB.setList]

theorem setList_self (sb : SB T) (ref : Nat) : sb.setList ref (sb.heap ref) = sb := by
  cases sb
  simp only [SB.setList, SB.mk.injEq, true_and, and_true]
  funext r
  by_cases h : r = ref <;> simp [h]

/-! ### A single interface -/

/-- Feeding one callback. -/
def feed (c : Callback T (SB T)) : List T → Nat → SB T → SB T × Option (Nat × PyErr)
  | [], _, sb => (sb, none)
  | t :: r, n, sb =>
    match c t sb with
    | (sb, none) => feed c r (n + 1) sb
    | (sb, some e) => (sb, some (n, e))

theorem receiveAll_feed (c : Callback T (SB T)) (mid : Nat) (R : List T) (n : Nat) (w : World T)
    (h : (w.mons mid).callbacks = [c]) :
    (w.receiveAll mid R n).1.sb = (feed c R n w.sb).1 ∧ (w.receiveAll mid R n).2 = (feed c R n w.sb).2 := by
  induction R generalizing n w with
  | nil => exact ⟨rfl, rfl⟩
  | cons t r ih =>
    unfold World.receiveAll feed
    have hr : w.receive mid t = ({ w with sb := (c t w.sb).1 }.setMon mid ((w.mons mid).recv t w.sb).1, (c t w.sb).2) := by
      unfold World.receive Monitor.recv
      simp only [h, runCallbacks]
      cases hc : c t w.sb with
      | mk a b =>
        cases b <;> rfl
    rw [hr]
    cases hc : c t w.sb with
    | mk a b =>
      cases b with
      | some e => exact ⟨rfl, rfl⟩
      | none =>
        simp only
        have := ih (n + 1) ({ w with sb := a }.setMon mid ((w.mons mid).recv t w.sb).1) (by
          simp only [World.setMon, if_true]
          unfold Monitor.recv
          simp only [h, runCallbacks, hc]
          simp only [List.isEmpty_cons, Bool.false_eq_true, if_false]
          split <;> rfl)
        exact this

theorem new_addInterface (ops : TxnOps T) (imm : Bool) (heap : Nat → List T) (mid ref : Nat) (name : Option String)
    (depth : Int) (strict : Bool) :
    ((World.new imm heap).addInterface ops mid (busMonitor name) (.list ref) .none depth strict).2 = none ∧
    ((World.new imm heap).addInterface ops mid (busMonitor name) (.list ref) .none depth strict).1.sb =
      ⟨0, imm, heap, [(mid, .list ref)]⟩ ∧
    (((World.new imm heap).addInterface ops mid (busMonitor name) (.list ref) .none depth strict).1.mons mid).callbacks =
      [checkReceived ops (busMonitor name) (.list ref) depth strict] := by
  simp [World.addInterface, busMonitor, World.new, World.setMon, dictSet, Monitor.addCallback]

theorem result_single (sb : SB T) (mid ref : Nat) (h : sb.expected = [(mid, .list ref)]) :
    sb.result = .ok () ↔ sb.heap ref = [] ∧ sb.errors = 0 := by
  unfold SB.result SB.pending
  rw [h]
  simp only [List.any_cons, List.any_nil, Bool.or_false]
  by_cases h1 : sb.heap ref = []
  · by_cases h2 : sb.errors = 0 <;> simp [h1, h2]
  · simp [h1]

/-! ### Depth 0 -/

theorem feed_depth0 (ops : TxnOps T) (name : Option String) (ref : Nat) (strict : Bool) (R : List T) (n : Nat) (sb : SB T)
    (himm : sb.imm = false) :
    ∃ sb', feed (checkReceived ops (busMonitor name) (.list ref) 0 strict) R n sb = (sb', none) ∧
      sb'.expected = sb.expected ∧ sb'.heap ref = (sb.heap ref).drop R.length ∧
      sb'.errors = sb.errors + mismatches ops strict R (sb.heap ref) + (R.length - (sb.heap ref).length) := by
  induction R generalizing n sb with
  | nil => exact ⟨sb, rfl, rfl, by simp, by simp [mismatches]⟩
  | cons t r ih =>
    unfold feed
    cases hE : sb.heap ref with
    | nil =>
      obtain ⟨msg, hc⟩ := check_empty ops (busMonitor name) (by simp [busMonitor]) ref 0 strict t sb hE
      rw [hc, himm]
      simp only [Bool.false_eq_true, if_false]
      obtain ⟨sb', h1, h2, h3, h4⟩ := ih (n + 1) { sb with errors := sb.errors + 1 } himm
      rw [himm] at h1
      refine ⟨sb', h1, h2, ?_, ?_⟩
      · rw [h3]; simp [hE]
      · rw [h4]
        simp only [hE]
        cases r <;> simp [mismatches] <;> omega
    | cons e E =>
      obtain ⟨e', he', hc⟩ := check_nonempty ops (busMonitor name) (by simp [busMonitor]) ref 0 strict t sb (by simp [hE])
      rw [hE, reorderIndex_zero] at he' hc
      simp at he'
      subst he'
      rw [hc]
      simp only [List.eraseIdx_cons_zero]
      by_cases ha : Accepts ops strict t e
      · rw [compare_accept _ _ _ _ _ ha]
        simp only
        obtain ⟨sb', h1, h2, h3, h4⟩ := ih (n + 1) (sb.setList ref E) himm
        refine ⟨sb', h1, h2, ?_, ?_⟩
        · rw [h3, setList_heap]; simp
        · rw [h4, setList_heap]
          simp [mismatches, ha]
          simp [SB.setList]
      · obtain ⟨msg, hm⟩ := compare_reject ops (sb.setList ref E) t e strict ha
        rw [hm]
        have : (sb.setList ref E).imm = false := himm
        rw [if_neg (by simp [this])]
        simp only
        obtain ⟨sb', h1, h2, h3, h4⟩ := ih (n + 1) { (sb.setList ref E) with errors := (sb.setList ref E).errors + 1 } himm
        refine ⟨sb', h1, h2, ?_, ?_⟩
        · rw [h3]; simp [SB.setList]
        · rw [h4]
          simp [mismatches, ha, SB.setList]
          omega

theorem mismatches_zero (ops : TxnOps T) (strict : Bool) (R E : List T) :
    mismatches ops strict R E = 0 ↔
      ∀ i (h1 : i < R.length) (h2 : i < E.length), Accepts ops strict R[i] E[i] := by
  induction R generalizing E with
  | nil => simp [mismatches]
  | cons r rs ih =>
    cases E with
    | nil => simp [mismatches]
    | cons e es =>
      simp only [mismatches, Nat.add_eq_zero_iff, ih]
      constructor
      · rintro ⟨h1, h2⟩ i hi1 hi2
        cases i with
        | zero =>
          by_cases ha : Accepts ops strict r e
          · exact ha
          · simp [ha] at h1
        | succ i => exact h2 i (by simpa using hi1) (by simpa using hi2)
      · intro h
        refine ⟨?_, ?_⟩
        · have h0 : Accepts ops strict r e := h 0 (by simp) (by simp)
          rw [if_pos h0]
        · intro i hi1 hi2
          exact h (i + 1) (by simpa using hi1) (by simpa using hi2)

theorem feed_imm (ops : TxnOps T) (name : Option String) (ref : Nat) (strict : Bool) (R : List T) (n : Nat) (sb : SB T)
    (himm : sb.imm = true) :
    match firstBad ops strict R (sb.heap ref) with
    | none => ∃ sb', feed (checkReceived ops (busMonitor name) (.list ref) 0 strict) R n sb = (sb', none) ∧
        sb'.errors = sb.errors
    | some k => ∃ sb' msg, feed (checkReceived ops (busMonitor name) (.list ref) 0 strict) R n sb =
        (sb', some (n + k, .assertion msg)) ∧ sb'.errors = sb.errors + 1 := by
  induction R generalizing n sb with
  | nil => exact ⟨sb, rfl, rfl⟩
  | cons t r ih =>
    unfold feed
    cases hE : sb.heap ref with
    | nil =>
      simp only [firstBad]
      obtain ⟨msg, hc⟩ := check_empty ops (busMonitor name) (by simp [busMonitor]) ref 0 strict t sb hE
      rw [hc, himm]
      exact ⟨_, msg, rfl, rfl⟩
    | cons e E =>
      obtain ⟨e', he', hc⟩ := check_nonempty ops (busMonitor name) (by simp [busMonitor]) ref 0 strict t sb (by simp [hE])
      rw [hE, reorderIndex_zero] at he' hc
      simp at he'
      subst he'
      rw [hc]
      simp only [List.eraseIdx_cons_zero]
      by_cases ha : Accepts ops strict t e
      · rw [compare_accept _ _ _ _ _ ha]
        have := ih (n + 1) (sb.setList ref E) himm
        rw [setList_heap] at this
        simp only [firstBad, if_pos ha]
        cases hb : firstBad ops strict r E with
        | none =>
          rw [hb] at this
          obtain ⟨sb', h1, h2⟩ := this
          exact ⟨sb', h1, h2⟩
        | some k =>
          rw [hb] at this
          obtain ⟨sb', msg, h1, h2⟩ := this
          exact ⟨sb', msg, by simp only; rw [h1]; congr 3; omega, h2⟩
      · obtain ⟨msg, hm⟩ := compare_reject ops (sb.setList ref E) t e strict ha
        rw [hm]
        have : (sb.setList ref E).imm = true := himm
        rw [this]
        simp only [firstBad, if_neg ha]
        exact ⟨_, msg, rfl, rfl⟩

/-! ### Reordering -/

theorem Reorders.exchange (d : Nat) (acc : T → T → Prop) (R : List T) :
    ∀ (p1 p2 q : List T) (r r' : T), (∀ x, acc x r → acc x r') → p1.length + p2.length ≤ d →
      Reorders d acc (p1 ++ r :: (p2 ++ q)) R → Reorders d acc (p1 ++ p2 ++ r' :: q) R := by
  induction R with
  | nil =>
    intro p1 p2 q r r' _ _ h
    generalize hE : p1 ++ r :: (p2 ++ q) = E at h
    cases h
    simp at hE
  | cons g R ih =>
    intro p1 p2 q r r' hr hd h
    generalize hE : p1 ++ r :: (p2 ++ q) = E at h
    cases h with
    | take pre post e got _ hpre hacc rest =>
      rcases List.append_eq_append_iff.1 hE with ⟨a, h1, h2⟩ | ⟨a, h1, h2⟩
      · -- pre = p1 ++ a
        cases a with
        | nil =>
          simp at h1 h2
          obtain ⟨h2, h3⟩ := h2
          subst h1 h2 h3
          have := Reorders.take (d := d) (_ ++ p2) q r' g R (by simpa using hd) (hr g hacc) (by simpa using rest)
          exact this
        | cons x a =>
          simp only [List.cons_append, List.cons.injEq] at h2
          obtain ⟨h2, h3⟩ := h2
          subst h2
          -- p2 ++ q = a ++ e :: post
          rcases List.append_eq_append_iff.1 h3 with ⟨c, h4, h5⟩ | ⟨c, h4, h5⟩
          · -- a = p2 ++ c, q = c ++ e :: post
            subst h4 h1 h5
            have hrest : Reorders d acc (p1 ++ r :: (p2 ++ (c ++ post))) R := by simpa using rest
            have := ih p1 p2 (c ++ post) r r' hr hd hrest
            have := Reorders.take (d := d) (p1 ++ p2 ++ r' :: c) post e g R (by simp at hpre ⊢; omega) hacc (by simpa using this)
            simpa using this
          · -- p2 = a ++ c, e :: post = c ++ q
            cases c with
            | nil =>
              simp at h4 h5
              subst h4 h1 h5
              have hrest : Reorders d acc (p1 ++ r :: (p2 ++ post)) R := by simpa using rest
              have := ih p1 p2 post r r' hr hd hrest
              have := Reorders.take (d := d) (p1 ++ p2 ++ [r']) post e g R (by simp at hpre ⊢; omega) hacc (by simpa using this)
              simpa using this
            | cons y c =>
              simp only [List.cons_append, List.cons.injEq] at h5
              obtain ⟨h5, h6⟩ := h5
              subst h5 h4 h1 h6
              have hrest : Reorders d acc (p1 ++ r :: ((a ++ c) ++ q)) R := by simpa using rest
              have := ih p1 (a ++ c) q r r' hr (by simp at hd ⊢; omega) hrest
              have := Reorders.take (d := d) (p1 ++ a) (c ++ r' :: q) e g R (by simp at hpre ⊢; omega) hacc (by simpa using this)
              simpa using this
      · -- p1 = pre ++ a, e :: post = a ++ r :: (p2 ++ q)
        cases a with
        | nil =>
          simp at h1 h2
          obtain ⟨h2, h3⟩ := h2
          subst h1 h2 h3
          have := Reorders.take (d := d) (p1 ++ p2) q r' g R (by simpa using hd) (hr g hacc) (by simpa using rest)
          exact this
        | cons x a =>
          simp only [List.cons_append, List.cons.injEq] at h2
          obtain ⟨h2, h3⟩ := h2
          subst h2 h3 h1
          have hrest : Reorders d acc ((pre ++ a) ++ r :: (p2 ++ q)) R := by simpa using rest
          have := ih (pre ++ a) p2 q r r' hr (by simp at hd ⊢; omega) hrest
          have := Reorders.take (d := d) pre (a ++ p2 ++ r' :: q) e g R hpre hacc (by simpa using this)
          simpa using this

theorem reorder_split (ops : TxnOps T) (d : Nat) (E : List T) (t : T) :
    (∃ pre e post, E = pre ++ e :: post ∧ pre.length ≤ d ∧ ops.eq e t = true ∧ (∀ x ∈ pre, ops.eq x t = false) ∧
      reorderIndex ops d E t = pre.length) ∨
    (reorderIndex ops d E t = 0 ∧ ∀ pre e post, E = pre ++ e :: post → pre.length ≤ d → ops.eq e t = false) := by
  unfold reorderIndex
  rw [window_nat]
  simp only
  cases hf : (E.take (min (d + 1) E.length)).findIdx? (fun e => ops.eq e t) with
  | some i =>
    left
    obtain ⟨h1, h2, h3⟩ := List.findIdx?_eq_some_iff_getElem.1 hf
    simp only [List.length_take] at h1
    have hi : i < E.length := by omega
    simp only [List.getElem_take] at h2 h3
    refine ⟨E.take i, E[i], E.drop (i + 1), ?_, ?_, h2, ?_, ?_⟩
    · rw [List.getElem_cons_drop, List.take_append_drop]
    · simp; omega
    · intro x hx
      obtain ⟨j, hj, rfl⟩ := List.getElem_of_mem hx
      simp only [List.length_take] at hj
      simp only [List.getElem_take]
      have := h3 j (by omega)
      simpa using this
    · simp; omega
  | none =>
    right
    refine ⟨rfl, ?_⟩
    intro pre e post hE hpre
    rw [List.findIdx?_eq_none_iff] at hf
    refine hf e ?_
    subst hE
    rw [List.mem_take_iff_getElem]
    exact ⟨pre.length, by simp; omega, by simp⟩

theorem feed_errors_mono (ops : TxnOps T) (name : Option String) (ref : Nat) (depth : Int) (strict : Bool) (R : List T)
    (n : Nat) (sb : SB T) :
    sb.errors ≤ (feed (checkReceived ops (busMonitor name) (.list ref) depth strict) R n sb).1.errors := by
  induction R generalizing n sb with
  | nil => exact Nat.le_refl _
  | cons t r ih =>
    have hstep : sb.errors ≤ (checkReceived ops (busMonitor name) (.list ref) depth strict t sb).1.errors := by
      by_cases hE : sb.heap ref = []
      · obtain ⟨msg, hc⟩ := check_empty ops (busMonitor name) (by simp [busMonitor]) ref depth strict t sb hE
        rw [hc]; simp
      · obtain ⟨e, -, hc⟩ := check_nonempty ops (busMonitor name) (by simp [busMonitor]) ref depth strict t sb hE
        rw [hc]
        by_cases ha : Accepts ops strict t e
        · rw [compare_accept _ _ _ _ _ ha]; exact Nat.le_refl _
        · obtain ⟨msg, hm⟩ := compare_reject ops (sb.setList ref ((sb.heap ref).eraseIdx (reorderIndex ops depth (sb.heap ref) t))) t e strict ha
          rw [hm]; simp [SB.setList]
    unfold feed
    cases hc : checkReceived ops (busMonitor name) (.list ref) depth strict t sb with
    | mk a b =>
      rw [hc] at hstep
      cases b with
      | some e => exact hstep
      | none => exact Nat.le_trans hstep (ih (n + 1) a)

theorem feed_reorder (ops : TxnOps T) (name : Option String) (ref d : Nat) (strict : Bool)
    (heq : ∀ a b, ops.eq a b = true ↔ Accepts ops strict b a)
    (hsymm : ∀ a b, Accepts ops strict a b → Accepts ops strict b a)
    (htrans : ∀ a b c, Accepts ops strict a b → Accepts ops strict b c → Accepts ops strict a c)
    (R : List T) (n : Nat) (sb : SB T) (himm : sb.imm = false) (herr : sb.errors = 0) :
    ∃ sb', feed (checkReceived ops (busMonitor name) (.list ref) d strict) R n sb = (sb', none) ∧
      sb'.expected = sb.expected ∧
      ((sb'.heap ref = [] ∧ sb'.errors = 0) ↔ Reorders d (Accepts ops strict) (sb.heap ref) R) := by
  induction R generalizing n sb with
  | nil =>
    refine ⟨sb, rfl, rfl, ?_⟩
    simp only [herr, and_true]
    constructor
    · intro h; rw [h]; exact .nil
    · intro h
      generalize sb.heap ref = E at h
      cases h
      rfl
  | cons t r ih =>
    -- once an error is recorded the verdict stays negative
    have bad : ∀ sb1 : SB T, sb1.imm = false → sb1.errors ≠ 0 → sb1.expected = sb.expected →
        ¬ Reorders d (Accepts ops strict) (sb.heap ref) (t :: r) →
        ∃ sb', feed (checkReceived ops (busMonitor name) (.list ref) d strict) r (n + 1) sb1 = (sb', none) ∧
          sb'.expected = sb.expected ∧
          ((sb'.heap ref = [] ∧ sb'.errors = 0) ↔ Reorders d (Accepts ops strict) (sb.heap ref) (t :: r)) := by
      intro sb1 hi he hx hno
      have hmono := feed_errors_mono ops name ref d strict r (n + 1) sb1
      have key : ∀ (R : List T) (n : Nat) (s : SB T), s.imm = false → ∃ s', feed (checkReceived ops (busMonitor name) (.list ref) d strict) R n s = (s', none) ∧
          s'.expected = s.expected := by
        intro R
        induction R with
        | nil => intro n s _; exact ⟨s, rfl, rfl⟩
        | cons u R ihR =>
          intro n s hs
          unfold feed
          by_cases hE : s.heap ref = []
          · obtain ⟨msg, hc⟩ := check_empty ops (busMonitor name) (by simp [busMonitor]) ref d strict u s hE
            rw [hc, if_neg (by simp [hs])]
            exact ihR (n + 1) { s with errors := s.errors + 1 } hs
          · obtain ⟨e, -, hc⟩ := check_nonempty ops (busMonitor name) (by simp [busMonitor]) ref d strict u s hE
            rw [hc]
            by_cases ha : Accepts ops strict u e
            · rw [compare_accept _ _ _ _ _ ha]
              exact ihR (n + 1) (s.setList ref ((s.heap ref).eraseIdx (reorderIndex ops d (s.heap ref) u))) hs
            · obtain ⟨msg, hm⟩ := compare_reject ops (s.setList ref ((s.heap ref).eraseIdx (reorderIndex ops d (s.heap ref) u))) u e strict ha
              rw [hm, if_neg (by simp [SB.setList, hs])]
              exact ihR (n + 1) { (s.setList ref ((s.heap ref).eraseIdx (reorderIndex ops d (s.heap ref) u))) with errors := _ } hs
      obtain ⟨s', h1, h2⟩ := key r (n + 1) sb1 hi
      refine ⟨s', h1, h2.trans hx, ?_⟩
      rw [h1] at hmono
      constructor
      · rintro ⟨-, h0⟩; exact absurd (Nat.le_zero.1 (h0 ▸ hmono)) he
      · intro h; exact absurd h hno
    unfold feed
    by_cases hE : sb.heap ref = []
    · obtain ⟨msg, hc⟩ := check_empty ops (busMonitor name) (by simp [busMonitor]) ref d strict t sb hE
      rw [hc, if_neg (by simp [himm])]
      refine bad { sb with errors := sb.errors + 1 } himm (by simp) rfl ?_
      rw [hE]
      intro h
      generalize hE' : ([] : List T) = E at h
      cases h
      simp at hE'
    · obtain ⟨e, he, hc⟩ := check_nonempty ops (busMonitor name) (by simp [busMonitor]) ref d strict t sb hE
      rw [hc]
      rcases reorder_split ops d (sb.heap ref) t with ⟨pre, e', post, h1, h2, h3, h4, h5⟩ | ⟨h5, h6⟩
      · have hee : e' = e := by
          rw [h5, h1] at he
          simpa using he
        subst hee
        have hacc : Accepts ops strict t e' := (heq e' t).1 h3
        rw [compare_accept _ _ _ _ _ hacc]
        simp only
        obtain ⟨sb', f1, f2, f3⟩ := ih (n + 1) (sb.setList ref ((sb.heap ref).eraseIdx (reorderIndex ops d (sb.heap ref) t))) himm herr
        refine ⟨sb', f1, f2, ?_⟩
        rw [f3, setList_heap, h5, h1]
        have her : (pre ++ e' :: post).eraseIdx pre.length = pre ++ post := by
          rw [List.eraseIdx_append_of_length_le (Nat.le_refl _)]
          simp
        rw [her]
        constructor
        · intro h; exact .take pre post e' t r h2 hacc h
        · intro h
          generalize hg : pre ++ e' :: post = E at h
          cases h with
          | take pre2 post2 e2 _ _ hpre2 hacc2 rest =>
            have hm2 : ops.eq e2 t = true := (heq e2 t).2 hacc2
            rcases List.append_eq_append_iff.1 hg with ⟨a, g1, g2⟩ | ⟨a, g1, g2⟩
            · cases a with
              | nil => simp at g1 g2; rw [g1, ← g2.2] at rest; exact rest
              | cons x a =>
                simp only [List.cons_append, List.cons.injEq] at g2
                obtain ⟨g2, g3⟩ := g2
                subst g2 g3 g1
                have := Reorders.exchange d (Accepts ops strict) r pre a post2 e' e2
                  (fun x hx => htrans x e' e2 hx (htrans e' t e2 (hsymm _ _ hacc) hacc2))
                  (by simp at hpre2; omega) (by simpa using rest)
                simpa using this
            · cases a with
              | nil => simp at g1 g2; rw [← g1, g2.2] at rest; exact rest
              | cons x a =>
                simp only [List.cons_append, List.cons.injEq] at g2
                obtain ⟨g2, g3⟩ := g2
                subst g2 g1
                have := h4 e2 (by simp)
                rw [hm2] at this
                cases this
      · have hrej : ¬ Accepts ops strict t e := by
          intro ha
          have hE2 : ∃ E', sb.heap ref = e :: E' := by
            cases hh : sb.heap ref with
            | nil => exact absurd hh hE
            | cons x E' => rw [h5, hh] at he; simp at he; exact ⟨E', by rw [he]⟩
          obtain ⟨E', hE2⟩ := hE2
          have := h6 [] e E' hE2 (by simp)
          rw [(heq e t).2 ha] at this
          cases this
        obtain ⟨msg, hm⟩ := compare_reject ops (sb.setList ref ((sb.heap ref).eraseIdx (reorderIndex ops d (sb.heap ref) t))) t e strict hrej
        rw [hm, if_neg (by simp [SB.setList, himm])]
        refine bad { (sb.setList ref ((sb.heap ref).eraseIdx (reorderIndex ops d (sb.heap ref) t))) with errors := _ } himm (by simp) rfl ?_
        intro h
        generalize hg : sb.heap ref = E at h
        cases h with
        | take pre2 post2 e2 _ _ hpre2 hacc2 rest =>
          have := h6 pre2 e2 post2 hg hpre2
          rw [(heq e2 t).2 hacc2] at this
          cases this

/-! ### Many interfaces -/

theorem eq_of_nodup_map {α β : Type} (f : α → β) (l : List α) (hn : (l.map f).Nodup) (x y : α) (hx : x ∈ l) (hy : y ∈ l)
    (h : f x = f y) : x = y := by
  induction l with
  | nil => cases hx
  | cons a r ih =>
    simp only [List.map_cons, List.nodup_cons] at hn
    rcases List.mem_cons.1 hx with e1 | e1 <;> rcases List.mem_cons.1 hy with e2 | e2
    · rw [e1, e2]
    · subst e1; exact absurd (h ▸ List.mem_map.2 ⟨y, e2, rfl⟩) hn.1
    · subst e2; exact absurd (h ▸ List.mem_map.2 ⟨x, e1, rfl⟩) hn.1
    · exact ih hn.2 e1 e2

/-- The callbacks are those of the registered interfaces. -/
def Wired (ops : TxnOps T) (info : MonInfo) (ifs : List Iface) (w : World T) : Prop :=
  (∀ i ∈ ifs, (w.mons i.mid).callbacks = [checkReceived ops info (.list i.ref) i.depth i.strict]) ∧
  (∀ mid, mid ∉ ifs.map Iface.mid → (w.mons mid).callbacks = [])

/-- What one reception does to a wired world. -/
theorem receive_wired (ops : TxnOps T) (info : MonInfo) (hname : info.name ≠ none) (ifs : List Iface) (w : World T)
    (hw : Wired ops info ifs w) (mid : Nat) (t : T) :
    Wired ops info ifs (w.receive mid t).1 ∧ (w.receive mid t).1.sb.expected = w.sb.expected ∧
    w.sb.errors ≤ (w.receive mid t).1.sb.errors ∧
    (mid ∉ ifs.map Iface.mid → (w.receive mid t).1.sb = w.sb) ∧
    (∀ i ∈ ifs, i.mid = mid →
      (∀ r, r ≠ i.ref → (w.receive mid t).1.sb.heap r = w.sb.heap r) ∧
      ((w.receive mid t).1.sb.errors = 0 → (w.sb.heap i.ref).length = ((w.receive mid t).1.sb.heap i.ref).length + 1)) := by
  have hcb : ∀ m : Monitor T (SB T), ∀ sb : SB T, (m.recv t sb).1.callbacks = m.callbacks := by
    intro m sb
    unfold Monitor.recv
    simp only
    split
    · rfl
    · split <;> split <;> rfl
  have hmons : ∀ k, ((w.receive mid t).1.mons k).callbacks = (w.mons k).callbacks := by
    intro k
    unfold World.receive World.setMon
    simp only
    by_cases hk : k = mid
    · subst hk; simp [hcb]
    · simp [hk]
  have hwired : Wired ops info ifs (w.receive mid t).1 :=
    ⟨fun i hi => by rw [hmons]; exact hw.1 i hi, fun k hk => by rw [hmons]; exact hw.2 k hk⟩
  have hsb : (w.receive mid t).1.sb = ((w.mons mid).recv t w.sb).2.1 := rfl
  by_cases hm : mid ∈ ifs.map Iface.mid
  · obtain ⟨i, hi, hmid⟩ := List.mem_map.1 hm
    have hrun : ∀ j ∈ ifs, j.mid = mid → (w.receive mid t).1.sb = (checkReceived ops info (.list j.ref) j.depth j.strict t w.sb).1 := by
      intro j hj hjm
      rw [hsb]
      unfold Monitor.recv
      simp only
      rw [← hjm, hw.1 j hj]
      simp only [runCallbacks]
      cases hc : checkReceived ops info (.list j.ref) j.depth j.strict t w.sb with
      | mk a b => cases b <;> rfl
    have hone : ∀ j ∈ ifs, j.mid = mid → 
        (w.receive mid t).1.sb.expected = w.sb.expected ∧ w.sb.errors ≤ (w.receive mid t).1.sb.errors ∧
        (∀ r, r ≠ j.ref → (w.receive mid t).1.sb.heap r = w.sb.heap r) ∧
        ((w.receive mid t).1.sb.errors = 0 → (w.sb.heap j.ref).length = ((w.receive mid t).1.sb.heap j.ref).length + 1) := by
      intro j hj hjm
      rw [hrun j hj hjm]
      by_cases hE : w.sb.heap j.ref = []
      · obtain ⟨msg, hc⟩ := check_empty ops info hname j.ref j.depth j.strict t w.sb hE
        rw [hc]
        refine ⟨rfl, by simp, fun r _ => rfl, by simp⟩
      · obtain ⟨e, he, hc⟩ := check_nonempty ops info hname j.ref j.depth j.strict t w.sb hE
        rw [hc]
        have hlt := reorderIndex_lt ops j.depth (w.sb.heap j.ref) t hE
        by_cases ha : Accepts ops j.strict t e
        · rw [compare_accept _ _ _ _ _ ha]
          refine ⟨rfl, Nat.le_refl _, fun r hr => by simp [SB.setList, hr], ?_⟩
          intro _
          simp only
          rw [setList_heap, List.length_eraseIdx, if_pos hlt]
          omega
        · obtain ⟨msg, hm⟩ := compare_reject ops (w.sb.setList j.ref ((w.sb.heap j.ref).eraseIdx (reorderIndex ops j.depth (w.sb.heap j.ref) t))) t e j.strict ha
          rw [hm]
          refine ⟨rfl, by simp [SB.setList], fun r hr => by simp [SB.setList, hr], by simp⟩
    refine ⟨hwired, (hone i hi hmid).1, (hone i hi hmid).2.1, fun h => absurd hm h, ?_⟩
    intro j hj hjm
    exact (hone j hj hjm).2.2
  · have hs : (w.receive mid t).1.sb = w.sb := by
      rw [hsb]
      unfold Monitor.recv
      simp only [hw.2 mid hm, runCallbacks]
    refine ⟨hwired, by rw [hs], by rw [hs]; exact Nat.le_refl _, fun _ => hs, ?_⟩
    intro j hj hjm
    exact absurd (List.mem_map.2 ⟨j, hj, hjm⟩) hm

theorem playSb_balance (ops : TxnOps T) (info : MonInfo) (hname : info.name ≠ none) (ifs : List Iface)
    (href : (ifs.map Iface.ref).Nodup) (h : List (SbOp T)) (w : World T)
    (hw : Wired ops info ifs w) :
    (playSb h w).sb.expected = w.sb.expected ∧ w.sb.errors ≤ (playSb h w).sb.errors ∧
    ((playSb h w).sb.errors = 0 → ∀ i ∈ ifs,
      ((playSb h w).sb.heap i.ref).length + delivered i.mid h = (w.sb.heap i.ref).length + added i.ref h) := by
  induction h generalizing w with
  | nil => exact ⟨rfl, Nat.le_refl _, fun _ i _ => by simp [playSb, delivered, added]⟩
  | cons o r ih =>
    cases o with
    | extend ref ts =>
      have hw' : Wired ops info ifs { w with sb := w.sb.setList ref (w.sb.heap ref ++ ts) } := hw
      obtain ⟨h1, h2, h3⟩ := ih _ hw'
      refine ⟨h1, h2, ?_⟩
      intro he i hi
      have := h3 he i hi
      simp only [playSb, delivered, added]
      rw [this]
      by_cases hr : ref = i.ref
      · subst hr; simp [SB.setList]; omega
      · have : ¬ i.ref = ref := fun e => hr e.symm
        simp [SB.setList, hr, this]
    | recv mid t =>
      obtain ⟨r1, r2, r3, r4, r5⟩ := receive_wired ops info hname ifs w hw mid t
      obtain ⟨h1, h2, h3⟩ := ih _ r1
      refine ⟨h1.trans r2, Nat.le_trans r3 h2, ?_⟩
      intro he i hi
      have hbal := h3 he i hi
      have he1 : (w.receive mid t).1.sb.errors = 0 := Nat.le_zero.1 (by
        have : (playSb r (w.receive mid t).1).sb.errors = 0 := he
        rw [this] at h2; exact h2)
      simp only [playSb, delivered, added]
      by_cases hm : mid = i.mid
      · have := (r5 i hi hm.symm).2 he1
        simp only [hm, if_true] at this ⊢
        rw [hm] at hbal
        omega
      · simp only [hm, if_false]
        by_cases hm2 : mid ∈ ifs.map Iface.mid
        · obtain ⟨j, hj, hjm⟩ := List.mem_map.1 hm2
          have hne : i.ref ≠ j.ref := by
            intro e
            have hij : i = j := eq_of_nodup_map Iface.ref ifs href i j hi hj e
            exact hm (by rw [hij, hjm])
          rw [(r5 j hj hjm).1 i.ref hne] at hbal
          omega
        · rw [r4 hm2] at hbal
          omega

theorem addAll_wired (ops : TxnOps T) (name : Option String) (ifs : List Iface) :
    ∀ (done : List Iface) (w : World T), ((done ++ ifs).map Iface.mid).Nodup → Wired ops (busMonitor name) done w →
      w.sb.expected = done.map (fun i => (i.mid, .list i.ref)) →
      Wired ops (busMonitor name) (done ++ ifs) (addAll ops (busMonitor name) ifs w) ∧
      (addAll ops (busMonitor name) ifs w).sb.expected = (done ++ ifs).map (fun i => (i.mid, .list i.ref)) ∧
      (addAll ops (busMonitor name) ifs w).sb.errors = w.sb.errors ∧
      (addAll ops (busMonitor name) ifs w).sb.heap = w.sb.heap ∧
      (addAll ops (busMonitor name) ifs w).sb.imm = w.sb.imm := by
  induction ifs with
  | nil => intro done w _ h1 h2; simpa using ⟨h1, h2, by simp [addAll], by simp [addAll], by simp [addAll]⟩
  | cons i r ih =>
    intro done w hn h1 h2
    have hfresh : i.mid ∉ done.map Iface.mid := by
      rw [List.map_append, List.nodup_append] at hn
      intro hm
      exact hn.2.2 _ hm i.mid (by simp) rfl
    have key := ih (done ++ [i]) (w.addInterface ops i.mid (busMonitor name) (.list i.ref) .none i.depth i.strict).1
      (by simpa using hn) ?_ ?_
    · obtain ⟨k1, k2, k3, k4, k5⟩ := key
      refine ⟨by simpa [addAll] using k1, by simpa [addAll] using k2, k3.trans rfl, k4.trans rfl, k5.trans rfl⟩
    · constructor
      · intro j hj
        rcases List.mem_append.1 hj with hj | hj
        · have hne : j.mid ≠ i.mid := fun e => hfresh (e ▸ List.mem_map.2 ⟨j, hj, rfl⟩)
          have := h1.1 j hj
          simp [World.addInterface, busMonitor, World.setMon, hne]
          exact this
        · rw [List.mem_singleton.1 hj]
          have := h1.2 i.mid hfresh
          simp [World.addInterface, busMonitor, World.setMon, Monitor.addCallback, this]
      · intro mid hm
        simp only [List.map_append, List.map_cons, List.map_nil, List.mem_append, List.mem_singleton, not_or] at hm
        have := h1.2 mid hm.1
        simp [World.addInterface, busMonitor, World.setMon, hm.2]
        exact this
    · have hset : ∀ (l : List Iface), i.mid ∉ l.map Iface.mid →
          dictSet (l.map (fun i => (i.mid, Expected.list (T := T) i.ref))) i.mid (.list i.ref) =
            l.map (fun i => (i.mid, Expected.list i.ref)) ++ [(i.mid, .list i.ref)] := by
        intro l
        induction l with
        | nil => intro _; rfl
        | cons x xs ihx =>
          intro hx
          simp only [List.map_cons, List.mem_cons, not_or] at hx
          simp only [List.map_cons, dictSet]
          rw [if_neg (fun e => hx.1 e.symm), ihx hx.2]
          rfl
      simp [World.addInterface, busMonitor, World.setMon, h2, hset done hfresh]

end CocotbBus
