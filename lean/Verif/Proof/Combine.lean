import Verif.Spec.Combine

namespace CocotbBus
open Spec

theorem Elem.iter_eq (tag : String) (e : Elem) : e.iter tag = (if e.tag = tag then [e] else []) ++ Elem.iterAll tag e.children := by
  cases e; rw [Elem.iter]; rfl

theorem Elem.iterAll_flatMap (tag : String) (l : List Elem) : Elem.iterAll tag l = l.flatMap (Elem.iter tag) := by
  induction l with
  | nil => rfl
  | cons e r ih => rw [Elem.iterAll, ih]; rfl

theorem mem_iter_within (tag : String) (x : Elem) : ∀ e, e ∈ x.iter tag → Within e x ∧ e.tag = tag := by
  refine Elem.rec (motive_1 := fun x => ∀ e, e ∈ x.iter tag → Within e x ∧ e.tag = tag)
    (motive_2 := fun l => ∀ c ∈ l, ∀ e, e ∈ c.iter tag → Within e c ∧ e.tag = tag) ?_ ?_ ?_ x
  · intro t a cs ih e he
    rw [Elem.iter_eq, List.mem_append] at he
    rcases he with he | he
    · split at he
      · rename_i h; simp only [List.mem_singleton] at he; subst he; exact ⟨.self, h⟩
      · cases he
    · rw [Elem.iterAll_flatMap, List.mem_flatMap] at he
      obtain ⟨c, hc, he⟩ := he
      exact ⟨.child _ c hc (ih c hc e he).1, (ih c hc e he).2⟩
  · intro c hc; cases hc
  · intro hd tl h1 h2 c hc
    rcases List.mem_cons.mp hc with rfl | hc
    · exact h1
    · exact h2 c hc

theorem within_mem_iter (tag : String) (e x : Elem) (h : Within e x) (ht : e.tag = tag) : e ∈ x.iter tag := by
  induction h with
  | self => rw [Elem.iter_eq, if_pos ht]; simp
  | child x c hc _ ih => rw [Elem.iter_eq, List.mem_append, Elem.iterAll_flatMap, List.mem_flatMap]; exact .inr ⟨c, hc, ih⟩

/-- `iter` yields what is inside -/
theorem mem_iter (tag : String) (e x : Elem) : e ∈ x.iter tag ↔ Within e x ∧ e.tag = tag :=
  ⟨mem_iter_within tag x e, fun h => within_mem_iter tag e x h.1 h.2⟩

theorem get_lookup (e : Elem) (k : String) : e.get k = e.attrs.lookup k := by
  unfold Elem.get
  generalize e.attrs = l
  induction l with
  | nil => rfl
  | cons p l ih =>
    obtain ⟨a, b⟩ := p
    by_cases h : a = k
    · subst h; simp
    · have h1 : (a == k) = false := by simpa using h
      have h2 : (k == a) = false := by simpa using Ne.symm h
      simp only [List.find?, h1, List.lookup, h2]
      exact ih

theorem sameSuite_iff (a b : Elem) : sameSuite a b = true ↔ suiteKey a = suiteKey b := by
  simp [sameSuite, suiteKey, get_lookup]

theorem extend_key (a b : Elem) : suiteKey (a.extend b) = suiteKey a := rfl

/-- the children of the suites with a key -/
def childrenOf (k : Option String × Option String) (l : List Elem) : List (List Elem) := (l.filter (fun e => suiteKey e == k)).map Elem.children

theorem childrenOf_add (k : Option String × Option String) (acc : List Elem) (ts : Elem) :
    childrenOf k (addSuite acc ts) = if suiteKey ts = k then (match childrenOf k acc with | [] => [ts.children] | c :: r => (c ++ ts.children) :: r)
      else childrenOf k acc := by
  induction acc with
  | nil => by_cases h : suiteKey ts = k <;> simp [addSuite, childrenOf, h]
  | cons e r ih =>
    rw [addSuite]
    by_cases hs : sameSuite e ts = true
    · rw [if_pos hs]
      have hk := (sameSuite_iff e ts).mp hs
      by_cases h : suiteKey ts = k
      · simp only [childrenOf, List.filter_cons, extend_key, hk, h, beq_self_eq_true, if_true, List.map_cons]
        rfl
      · simp only [childrenOf, List.filter_cons, extend_key, hk, beq_iff_eq, h, if_false]
    · rw [if_neg hs]
      have hk : suiteKey e ≠ suiteKey ts := fun h => hs ((sameSuite_iff e ts).mpr h)
      by_cases h : suiteKey ts = k
      · have he : suiteKey e ≠ k := fun h' => hk (h'.trans h.symm)
        have e1 : ∀ l, childrenOf k (e :: l) = childrenOf k l := fun l => by simp [childrenOf, he]
        rw [e1, e1, ih]
      · by_cases he : suiteKey e = k
        · have e1 : ∀ l, childrenOf k (e :: l) = e.children :: childrenOf k l := fun l => by simp [childrenOf, he]
          rw [e1, e1, ih, if_neg h, if_neg h]
        · have e1 : ∀ l, childrenOf k (e :: l) = childrenOf k l := fun l => by simp [childrenOf, he]
          rw [e1, e1, ih]

theorem childrenOf_fold (k : Option String × Option String) (suites : List Elem) : ∀ acc : List Elem,
    childrenOf k (suites.foldl addSuite acc) = (match childrenOf k acc with
      | [] => if suites.any (fun s => suiteKey s == k) then [(childrenOf k suites).flatten] else []
      | c :: r => (c ++ (childrenOf k suites).flatten) :: r) := by
  induction suites with
  | nil => intro acc; simp only [List.foldl_nil, List.any_nil, Bool.false_eq_true, if_false]; cases childrenOf k acc <;> simp [childrenOf]
  | cons s r ih =>
    intro acc
    rw [List.foldl_cons, ih, childrenOf_add]
    by_cases h : suiteKey s = k
    · rw [if_pos h]
      have e1 : childrenOf k (s :: r) = s.children :: childrenOf k r := by simp [childrenOf, h]
      rw [e1]
      cases childrenOf k acc with
      | nil => simp [h]
      | cons c t => simp
    · rw [if_neg h]
      have e1 : childrenOf k (s :: r) = childrenOf k r := by simp [childrenOf, h]
      rw [e1]
      simp only [List.any_cons, show (suiteKey s == k) = false by simpa using h, Bool.false_or]

/-- what every suite of the result is -/
theorem fold_inv (P : Elem → Prop) (hext : ∀ a b, P a → P b → P (a.extend b)) (suites : List Elem) : ∀ acc : List Elem,
    (∀ e ∈ acc, P e) → (∀ s ∈ suites, P s) → ∀ e ∈ suites.foldl addSuite acc, P e := by
  have hadd : ∀ (acc : List Elem) (ts : Elem), (∀ e ∈ acc, P e) → P ts → ∀ e ∈ addSuite acc ts, P e := by
    intro acc ts
    induction acc with
    | nil => intro _ ht e he; simp only [addSuite, List.mem_singleton] at he; subst he; exact ht
    | cons a r ih =>
      intro ha ht e he
      rw [addSuite] at he
      split at he
      · rcases List.mem_cons.mp he with rfl | he
        · exact hext a ts (ha a (by simp)) ht
        · exact ha e (by simp [he])
      · rcases List.mem_cons.mp he with rfl | he
        · exact ha e (by simp)
        · exact ih (fun e he => ha e (by simp [he])) ht e he
  induction suites with
  | nil => intro acc ha _; exact ha
  | cons s r ih =>
    intro acc ha hs
    exact ih _ (hadd acc s ha (hs s (by simp))) (fun t ht => hs t (by simp [ht]))

theorem iterAll_append (tag : String) (a b : List Elem) : Elem.iterAll tag (a ++ b) = Elem.iterAll tag a ++ Elem.iterAll tag b := by
  simp [Elem.iterAll_flatMap]

/-- the elements of a tag other than testsuite -/
theorem fold_perm (tag : String) (suites : List Elem) : ∀ acc : List Elem, (∀ s ∈ acc ++ suites, s.tag ≠ tag) →
    (Elem.iterAll tag (suites.foldl addSuite acc)).Perm (Elem.iterAll tag acc ++ Elem.iterAll tag suites) := by
  have hadd : ∀ (acc : List Elem) (ts : Elem), (∀ e ∈ acc, e.tag ≠ tag) → ts.tag ≠ tag →
      (Elem.iterAll tag (addSuite acc ts)).Perm (Elem.iterAll tag acc ++ ts.iter tag) := by
    intro acc ts
    induction acc with
    | nil => intro _ _; simp [addSuite, Elem.iterAll]
    | cons a r ih =>
      intro ha ht
      rw [addSuite]
      split
      · have e1 : (a.extend ts).iter tag = a.iter tag ++ ts.iter tag := by
          rw [Elem.iter_eq, Elem.iter_eq tag a, Elem.iter_eq tag ts, if_neg (ha a (by simp)), if_neg ht,
            if_neg (by exact ha a (by simp))]
          exact iterAll_append tag _ _
        rw [Elem.iterAll, Elem.iterAll, e1, List.append_assoc, List.append_assoc]
        exact List.Perm.append_left _ List.perm_append_comm
      · rw [Elem.iterAll, Elem.iterAll, List.append_assoc]
        exact List.Perm.append_left _ (ih (fun e he => ha e (by simp [he])) ht)
  have htag : ∀ (acc : List Elem) (ts : Elem), (∀ e ∈ acc, e.tag ≠ tag) → ts.tag ≠ tag → ∀ e ∈ addSuite acc ts, e.tag ≠ tag := by
    intro acc ts ha ht
    exact fold_inv (fun e => e.tag ≠ tag) (fun a b h _ => h) [ts] acc ha (by simpa using ht)
  induction suites with
  | nil => intro acc _; simp [Elem.iterAll]
  | cons s r ih =>
    intro acc h
    have ha : ∀ e ∈ acc, e.tag ≠ tag := fun e he => h e (by simp [he])
    have hs : s.tag ≠ tag := h s (by simp)
    rw [List.foldl_cons]
    refine (ih (addSuite acc s) ?_).trans ?_
    · intro e he
      rcases List.mem_append.mp he with he | he
      · exact htag acc s ha hs e he
      · exact h e (by simp [he])
    · rw [Elem.iterAll, ← List.append_assoc]
      exact List.Perm.append_right _ (hadd acc s ha hs)

/-- a suite without suites inside -/
def Leaf (s : Elem) : Prop := s.tag = "testsuite" ∧ Elem.iterAll "testsuite" s.children = []

theorem leaf_of_flat (f : Elem) (hf : FlatFile f) (s : Elem) (hs : s ∈ f.iter "testsuite") : Leaf s := by
  obtain ⟨h1, h2⟩ := mem_iter_within _ _ _ hs
  refine ⟨h2, ?_⟩
  rw [Elem.iterAll_flatMap, List.flatMap_eq_nil_iff]
  intro c hc
  rw [List.eq_nil_iff_forall_not_mem]
  intro u hu
  obtain ⟨g1, g2⟩ := mem_iter_within _ _ _ hu
  exact hf s h1 h2 c hc u g1 g2

theorem iterAll_leaves (l : List Elem) (h : ∀ s ∈ l, Leaf s) : Elem.iterAll "testsuite" l = l := by
  induction l with
  | nil => rfl
  | cons e r ih =>
    rw [Elem.iterAll, ih (fun s hs => h s (by simp [hs])), Elem.iter_eq, if_pos (h e (by simp)).1, (h e (by simp)).2]
    rfl

theorem combine_suites (name : String) (files : List Elem) (hf : ∀ f ∈ files, FlatFile f) :
    (combineFiles name files).iter "testsuite" = (combineFiles name files).children := by
  rw [Elem.iter_eq, if_neg (by simp [combineFiles, Elem.tag]), List.nil_append]
  apply iterAll_leaves
  refine fold_inv Leaf ?_ _ [] (by simp) ?_
  · intro a b ha hb
    refine ⟨ha.1, ?_⟩
    show Elem.iterAll _ (a.children ++ b.children) = []
    rw [iterAll_append, ha.2, hb.2]; rfl
  · intro s hs
    obtain ⟨f, h1, h2⟩ := List.mem_flatMap.mp hs
    exact leaf_of_flat f (hf f h1) s h2

theorem combine_cases (name : String) (files : List Elem) (hf : ∀ f ∈ files, FlatFile f) :
    (((combineFiles name files).iter "testsuite").flatMap (Elem.iter "testcase")).Perm
      ((files.flatMap (Elem.iter "testsuite")).flatMap (Elem.iter "testcase")) := by
  rw [combine_suites name files hf, ← Elem.iterAll_flatMap, ← Elem.iterAll_flatMap]
  refine fold_perm "testcase" _ [] ?_
  intro s hs
  rw [List.nil_append] at hs
  obtain ⟨f, h1, h2⟩ := List.mem_flatMap.mp hs
  rw [(mem_iter_within _ _ _ h2).2]
  decide

theorem rc_fold (b : Bool) (l : List Elem) : ∀ rc : Nat, rc ≤ 1 →
    l.foldl (fun rc tc => (tc.iter "failure").foldl (fun rc _ => if b then 1 else rc) rc) rc =
      if rc = 1 ∨ (b = true ∧ ∃ tc ∈ l, tc.iter "failure" ≠ []) then 1 else 0 := by
  have inner : ∀ (f : List Elem) (rc : Nat), f.foldl (fun rc _ => if b then 1 else rc) rc = if b = true ∧ f ≠ [] then 1 else rc := by
    intro f
    induction f with
    | nil => intro rc; simp
    | cons x f ih =>
      intro rc
      rw [List.foldl_cons, ih]
      cases b <;> simp
  induction l with
  | nil => intro rc h; rcases Nat.le_one_iff_eq_zero_or_eq_one.mp h with rfl | rfl <;> simp
  | cons a l ih =>
    intro rc h
    rw [List.foldl_cons, inner]
    rw [ih _ (by split <;> omega)]
    by_cases hb : b = true
    · subst hb
      by_cases ha : a.iter "failure" = []
      · simp [ha]
      · simp [ha]
    · simp [hb]

end CocotbBus
