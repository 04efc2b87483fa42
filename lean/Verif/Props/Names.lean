import Verif.Spec.Names
import Mathlib.Data.List.Nodup

/-! # Property C116: the names of drivers and monitors -/

namespace CocotbBus
open Spec

theorem pyDec_nat_inj (a b : Nat) (h : a.repr = b.repr) : a = b := by
  rw [Nat.repr_eq_ofList_toDigits, Nat.repr_eq_ofList_toDigits] at h
  have := congrArg String.toList h
  rw [String.toList_ofList, String.toList_ofList] at this
  have := congrArg (fun l => Nat.ofDigitChars 10 l 0) this
  simpa only [Nat.ofDigitChars_ten_toDigits] using this

theorem nat_repr_chars (a : Nat) : ∀ c ∈ a.repr.toList, c.isDigit = true := by
  intro c hc
  rw [Nat.repr_eq_ofList_toDigits, String.toList_ofList] at hc
  exact Nat.isDigit_of_mem_toDigits (by decide) (by decide) hc

theorem pyDec_chars (i : Int) : ∀ c ∈ (pyDec i).toList, c ≠ '_' := by
  intro c hc
  unfold pyDec at hc
  rw [Int.repr_eq_if] at hc
  have hd : ∀ n : Nat, ∀ c ∈ n.repr.toList, c ≠ '_' := by
    intro n c hc h
    have := nat_repr_chars n c hc
    rw [h] at this
    revert this
    decide
  split at hc
  · exact hd _ c hc
  · rw [String.toList_append] at hc
    rcases List.mem_append.1 hc with h | h
    · have : c = '-' := by simpa using h
      rw [this]; decide
    · exact hd _ c h

theorem pyDec_inj (i j : Int) (h : pyDec i = pyDec j) : i = j := by
  have hno : ∀ (a : Nat) (s : String), a.repr ≠ "-" ++ s := by
    intro a s h
    have := nat_repr_chars a '-' (by rw [h, String.toList_append]; simp)
    revert this
    decide
  unfold pyDec at h
  rw [Int.repr_eq_if, Int.repr_eq_if] at h
  split at h <;> split at h
  · have := pyDec_nat_inj _ _ h; omega
  · exact absurd h (hno _ _)
  · exact absurd h.symm (hno _ _)
  · have h' := congrArg String.toList h
    rw [String.toList_append, String.toList_append] at h'
    have := pyDec_nat_inj _ _ (String.toList_inj.1 (List.append_cancel_left h'))
    omega

theorem split_last {l1 l2 d1 d2 : List Char} (h1 : '_' ∉ d1) (h2 : '_' ∉ d2) (h : l1 ++ '_' :: d1 = l2 ++ '_' :: d2) : l1 = l2 ∧ d1 = d2 := by
  have key : ∀ (l1 l2 d1 d2 a : List Char), '_' ∉ d1 → l2 = l1 ++ a → '_' :: d1 = a ++ '_' :: d2 → l1 = l2 ∧ d1 = d2 := by
    intro l1 l2 d1 d2 a hd hl hd'
    cases a with
    | nil => exact ⟨by rw [hl, List.append_nil], (List.cons.inj hd').2⟩
    | cons c a =>
      rw [List.cons_append] at hd'
      exact absurd (by rw [(List.cons.inj hd').2]; simp) hd
  rcases List.append_eq_append_iff.1 h with ⟨a, ha, hb⟩ | ⟨a, ha, hb⟩
  · exact key l1 l2 d1 d2 a h1 ha hb
  · obtain ⟨x, y⟩ := key l2 l1 d2 d1 a h2 ha hb
    exact ⟨x.symm, y.symm⟩

theorem indexed_inj (x y : String) (i j : Int) (h : x ++ "_" ++ pyDec i = y ++ "_" ++ pyDec j) : x = y ∧ i = j := by
  have h' := congrArg String.toList h
  simp only [String.toList_append] at h'
  rw [List.append_assoc, List.append_assoc] at h'
  obtain ⟨a, b⟩ := split_last (fun hc => pyDec_chars i _ hc rfl) (fun hc => pyDec_chars j _ hc rfl) h'
  exact ⟨String.toList_inj.1 a, pyDec_inj _ _ (String.toList_inj.1 b)⟩

/-- C116 for an array of buses: the drivers of its elements, and one for the whole, have different names, whatever the name of the bus. -/
theorem C116_array (name : Option String) (idx : List (Option Int)) (h : idx.Nodup) : AllDifferent driverName (idx.map (fun i => (name, i))) := by
  unfold AllDifferent
  rw [List.map_map]
  refine List.Nodup.map ?_ h
  intro i j hij
  simp only [Function.comp, driverName] at hij
  have hself : ∀ (n : Option String) (i : Int), n ≠ some (pyStr n ++ "_" ++ pyDec i) := by
    intro n i h
    cases n with
    | none => cases h
    | some n =>
      have := congrArg (fun x => (x.getD "").toList.length) h
      simp only [Option.getD_some, pyStr, String.toList_append, List.length_append] at this
      have h1 : ("_".toList).length = 1 := rfl
      omega
  cases i with
  | none =>
    cases j with
    | none => rfl
    | some j => exact absurd hij (hself name j)
  | some i =>
    cases j with
    | none => exact absurd hij.symm (hself name i)
    | some j => rw [(indexed_inj _ _ _ _ (Option.some.inj hij)).2]

/-- C116, what holds of drivers: those of different buses or elements, made with names that do not look like that of an element of an array (nor
`"None"`), have different names, also as text. What is missing: `C116_violated_driver`. -/
theorem C116_drivers_partial (objs : List (Option String × Option Int)) (h : objs.Nodup)
    (hn : ∀ o ∈ objs, ∀ n, o.1 = some n → ¬ LooksIndexed n ∧ n ≠ "None") : AllDifferent driverStr objs ∧ AllDifferent driverName objs := by
  have hall : AllDifferent driverStr objs := by
    unfold AllDifferent
    refine (List.nodup_map_iff_inj_on h).2 ?_
    have hstr : ∀ o ∈ objs, ∀ o' ∈ objs, pyStr o.1 = pyStr o'.1 → o.1 = o'.1 := by
      intro o ho o' ho' he
      cases h1 : o.1 with
      | none =>
        cases h2 : o'.1 with
        | none => rfl
        | some n => rw [h1, h2] at he; exact absurd he.symm (hn o' ho' n h2).2
      | some n =>
        cases h2 : o'.1 with
        | none => rw [h1, h2] at he; exact absurd he (hn o ho n h1).2
        | some n' => rw [h1, h2] at he; exact congrArg some he
    have hlook : ∀ o ∈ objs, ∀ (b : String) (i : Int), pyStr o.1 ≠ b ++ "_" ++ pyDec i := by
      intro o ho b i he
      cases h1 : o.1 with
      | some n => rw [h1] at he; exact (hn o ho n h1).1 ⟨b, i, he⟩
      | none =>
        rw [h1] at he
        have hm : '_' ∈ ("None" : String).toList := by
          have := congrArg String.toList he
          rw [show pyStr none = "None" from rfl] at this
          rw [this]
          simp [String.toList_append]
        revert hm
        decide
    intro o ho o' ho' he
    obtain ⟨n, i⟩ := o
    obtain ⟨n', i'⟩ := o'
    simp only [driverStr, driverName] at he
    cases i with
    | none =>
      cases i' with
      | none => rw [Prod.mk.injEq]; exact ⟨hstr _ ho _ ho' he, rfl⟩
      | some j => exact absurd he (hlook _ ho _ _)
    | some i =>
      cases i' with
      | none => exact absurd he.symm (hlook _ ho' _ _)
      | some j =>
        obtain ⟨a, b⟩ := indexed_inj _ _ _ _ he
        rw [Prod.mk.injEq, b]
        exact ⟨hstr _ ho _ ho' a, rfl⟩
  refine ⟨hall, ?_⟩
  unfold AllDifferent at hall ⊢
  rw [show objs.map (fun o => driverStr o.1 o.2) = (objs.map (fun o => driverName o.1 o.2)).map pyStr by simp [driverStr]] at hall
  exact List.Nodup.of_map _ hall

/-- C116 is false of drivers: element 1 of the array `a` and the bus `a_1`. -/
theorem C116_violated_driver : ∃ objs : List (Option String × Option Int), objs.Nodup ∧ ¬ AllDifferent driverName objs :=
  ⟨[(some "a", some 1), (some "a_1", none)], by decide, by unfold AllDifferent; decide +kernel⟩

/-- C116 is false of monitors: those of all elements of an array have the same name. -/
theorem C116_violated_monitor (cls : String) (name : Option String) (i j : Option Int) :
    monitorName name i = monitorName name j ∧ monitorStr cls name i = monitorStr cls name j := ⟨rfl, rfl⟩

/-- C116, what holds of monitors: with different names given, the names are different. -/
theorem C116_monitors_partial (cls : String) (objs : List (Option String × Option Int)) (h : (objs.map Prod.fst).Nodup)
    (hn : ∀ o ∈ objs, o.1 ≠ some "None") : AllDifferent (monitorStr cls) objs := by
  unfold AllDifferent
  refine (List.nodup_map_iff_inj_on (List.Nodup.of_map _ h)).2 ?_
  intro o ho o' ho' he
  have he' := congrArg String.toList he
  simp only [monitorStr, monitorName, String.toList_append, List.append_assoc] at he'
  have he2 := List.append_cancel_left (List.append_cancel_left he')
  have he3 := String.toList_inj.1 (List.append_cancel_right he2)
  apply (List.nodup_map_iff_inj_on (List.Nodup.of_map _ h)).1 h o ho o' ho'
  cases h1 : o.1 with
  | none =>
    cases h2 : o'.1 with
    | none => rfl
    | some n => rw [h1, h2] at he3; exact absurd (by rw [h2]; exact congrArg some he3.symm) (hn o' ho')
  | some n =>
    cases h2 : o'.1 with
    | none => rw [h1, h2] at he3; exact absurd (by rw [h1]; exact congrArg some he3) (hn o ho)
    | some n' => rw [h1, h2] at he3; exact congrArg some he3

/-- C116 is false of loggers: the drivers of all elements of an array, although their names are different, log under one name. -/
theorem C116_violated_logger (entity : String) (name : Option String) (i j : Int) (h : i ≠ j) :
    driverName name (some i) ≠ driverName name (some j) ∧ busLogger entity name (some i) = busLogger entity name (some j) := by
  refine ⟨fun he => ?_, rfl⟩
  have := C116_array name [some i, some j] (by simpa using h)
  unfold AllDifferent at this
  simp [he] at this

/-- C116, what holds of loggers: drivers and monitors of one entity with different names given log under different names. -/
theorem C116_loggers_partial (entity : String) (objs : List (Option String × Option Int)) (h : (objs.map Prod.fst).Nodup)
    (hn : ∀ o ∈ objs, o.1 ≠ some "None") : AllDifferent (busLogger entity) objs := by
  have hall := C116_monitors_partial "" objs h hn
  unfold AllDifferent at hall ⊢
  have hi := (List.nodup_map_iff_inj_on (List.Nodup.of_map _ h)).1 hall
  refine (List.nodup_map_iff_inj_on (List.Nodup.of_map _ h)).2 ?_
  intro o ho o' ho' he
  refine hi o ho o' ho' ?_
  have he' := congrArg String.toList he
  simp only [busLogger, String.toList_append, List.append_assoc] at he'
  have he2 := String.toList_inj.1 (List.append_cancel_left (List.append_cancel_left (List.append_cancel_left he')))
  simp only [monitorStr, monitorName, he2]

example : AllDifferent (busLogger "dut") [(some "a", some 1), (some "b", some 1), (none, none)] := C116_loggers_partial _ _ (by decide) (by decide)

/-- a name that looks like that of an element ends with a digit -/
theorem looksIndexed_last (n : String) (h : LooksIndexed n) : ∃ c, n.toList.getLast? = some c ∧ c.isDigit = true := by
  obtain ⟨b, i, rfl⟩ := h
  have hdec : ∃ (p : String) (a : Nat), pyDec i = p ++ a.repr := by
    unfold pyDec
    rw [Int.repr_eq_if]
    split
    · exact ⟨"", i.toNat, by simp⟩
    · exact ⟨"-", _, rfl⟩
  obtain ⟨p, a, hp⟩ := hdec
  have hne : a.repr.toList ≠ [] := fun h => Nat.repr_ne_empty (String.toList_inj.1 (h.trans (by rfl)))
  refine ⟨a.repr.toList.getLast hne, ?_, nat_repr_chars a _ (List.getLast_mem hne)⟩
  rw [hp, String.toList_append, String.toList_append, String.toList_append, ← List.append_assoc, List.getLast?_append_of_ne_nil _ hne, List.getLast?_eq_some_getLast hne]

/-! Four drivers: of the bus `stream_in`, of its elements 1 and -1, of element 1 of `stream_out`, and one without a name. -/
example : AllDifferent driverStr [(some "stream_in", none), (some "stream_in", some 1), (some "stream_in", some (-1)), (some "stream_out", some 1), (none, none)] := by
  refine (C116_drivers_partial _ (by decide) ?_).1
  have hl : ∀ n : String, (n.toList.getLast?.any Char.isDigit) = false → ¬ LooksIndexed n := by
    intro n hn h
    obtain ⟨c, h1, h2⟩ := looksIndexed_last n h
    rw [h1, Option.any_some, h2] at hn
    cases hn
  intro o ho n hon
  simp only [List.mem_cons, List.not_mem_nil, or_false] at ho
  rcases ho with rfl | rfl | rfl | rfl | rfl <;> first | (cases hon; exact ⟨hl _ (by decide +kernel), by decide⟩) | cases hon

example : [none, some 0, some 1, some (-1)].map (driverName (some "data")) = [some "data", some "data_0", some "data_1", some "data_-1"] := by decide +kernel

example : AllDifferent driverName ([none, some 0, some 1, some (-1)].map (fun i => (some "data", i))) := C116_array _ _ (by decide)

example : AllDifferent (monitorStr "AvalonST") [(some "a", some 1), (some "b", some 1), (none, none)] :=
  C116_monitors_partial _ _ (by decide) (by decide)

end CocotbBus
