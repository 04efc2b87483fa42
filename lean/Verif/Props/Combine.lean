import Verif.Proof.Combine

/-! # C89 and C90: `combine_results.py` -/

namespace CocotbBus
open Spec

/-- C89: for every name and package there is one test suite in the result if there is one in the files, and its contents are those of
all suites of that name and package, in the order in which they are read. -/
theorem C89_suites (name : String) (files : List Elem) (k : Option String × Option String) :
    let suites := files.flatMap (Elem.iter "testsuite")
    ((combineFiles name files).children.filter (fun s => suiteKey s == k)).map Elem.children =
      if suites.any (fun s => suiteKey s == k) then [(suites.filter (fun s => suiteKey s == k)).flatMap Elem.children] else [] := by
  intro suites
  have := childrenOf_fold k suites []
  rw [List.flatMap_def]
  exact this

/-- C89: the test cases of the result are those of the files, each as often as it is in the files. -/
theorem C89_testcases (name : String) (files : List Elem) (hf : ∀ f ∈ files, FlatFile f) :
    (((combineFiles name files).iter "testsuite").flatMap (Elem.iter "testcase")).Perm
      ((files.flatMap (Elem.iter "testsuite")).flatMap (Elem.iter "testcase")) :=
  combine_cases name files hf

/-- C89: the totals printed are the number of different suites and the number of test cases. -/
theorem C89_totals (name : String) (files : List Elem) (hf : ∀ f ∈ files, FlatFile f) :
    (combineCounts (combineFiles name files)).2 = ((files.flatMap (Elem.iter "testsuite")).flatMap (Elem.iter "testcase")).length ∧
    ∃ keys : List (Option String × Option String), keys.length = (combineCounts (combineFiles name files)).1 ∧ keys.Nodup ∧
      ∀ k, k ∈ keys ↔ ∃ s ∈ files.flatMap (Elem.iter "testsuite"), suiteKey s = k := by
  refine ⟨(combine_cases name files hf).length_eq, (combineFiles name files).children.map suiteKey, ?_, ?_, ?_⟩
  · rw [combineCounts, combine_suites name files hf]; simp
  · rw [List.nodup_iff_count]
    intro k
    have h := congrArg List.length (C89_suites name files k)
    rw [List.length_map] at h
    rw [List.count_eq_countP, List.countP_map, List.countP_eq_length_filter]
    show ((combineFiles name files).children.filter (fun s => suiteKey s == k)).length ≤ 1
    rw [h]
    split <;> simp
  · intro k
    have h := congrArg List.length (C89_suites name files k)
    rw [List.length_map] at h
    constructor
    · intro hk
      obtain ⟨e, h1, h2⟩ := List.mem_map.mp hk
      have hm : e ∈ (combineFiles name files).children.filter (fun s => suiteKey s == k) := by simp [h1, h2]
      have hpos := List.length_pos_of_mem hm
      rw [h] at hpos
      split at hpos
      · rename_i hany
        obtain ⟨s, hs, hk⟩ := List.any_eq_true.mp hany
        exact ⟨s, hs, by simpa using hk⟩
      · simp at hpos
    · rintro ⟨s, hs, hk⟩
      have hany : (files.flatMap (Elem.iter "testsuite")).any (fun s => suiteKey s == k) = true :=
        List.any_eq_true.mpr ⟨s, hs, by simpa using hk⟩
      rw [if_pos hany] at h
      have hpos : 0 < ((combineFiles name files).children.filter (fun s => suiteKey s == k)).length := by rw [h]; simp
      obtain ⟨e, he⟩ := List.exists_mem_of_length_pos hpos
      obtain ⟨h1, h2⟩ := List.mem_filter.mp he
      exact List.mem_map.mpr ⟨e, h1, by simpa using h2⟩

/-- C90: the exit status is 1 if some test case of some file has failed and `--suppress_rc` is not given, and 0 otherwise. -/
theorem C90 (name : String) (files : List Elem) (hf : ∀ f ∈ files, FlatFile f) (setRc : Bool) :
    (combineRc setRc (combineFiles name files) = 1 ↔ setRc = true ∧ SomeFailure files) ∧
    (combineRc setRc (combineFiles name files) = 0 ↔ ¬ (setRc = true ∧ SomeFailure files)) := by
  have hex : (∃ tc ∈ ((combineFiles name files).iter "testsuite").flatMap (Elem.iter "testcase"), tc.iter "failure" ≠ []) ↔ SomeFailure files := by
    constructor
    · rintro ⟨tc, h1, h2⟩
      rw [(combine_cases name files hf).mem_iff] at h1
      obtain ⟨s, h3, h4⟩ := List.mem_flatMap.mp h1
      obtain ⟨f, h5, h6⟩ := List.mem_flatMap.mp h3
      obtain ⟨x, hx⟩ := List.exists_mem_of_ne_nil _ h2
      obtain ⟨a1, a2⟩ := (mem_iter _ _ _).mp h6
      obtain ⟨b1, b2⟩ := (mem_iter _ _ _).mp h4
      obtain ⟨c1, c2⟩ := (mem_iter _ _ _).mp hx
      exact ⟨f, h5, s, a1, a2, tc, b1, b2, x, c1, c2⟩
    · rintro ⟨f, h5, s, a1, a2, tc, b1, b2, x, c1, c2⟩
      refine ⟨tc, ?_, List.ne_nil_of_mem ((mem_iter _ _ _).mpr ⟨c1, c2⟩)⟩
      rw [(combine_cases name files hf).mem_iff]
      exact List.mem_flatMap.mpr ⟨s, List.mem_flatMap.mpr ⟨f, h5, (mem_iter _ _ _).mpr ⟨a1, a2⟩⟩, (mem_iter _ _ _).mpr ⟨b1, b2⟩⟩
  unfold combineRc
  rw [rc_fold setRc _ 0 (by decide)]
  by_cases h : setRc = true ∧ SomeFailure files
  · rw [if_pos (.inr ⟨h.1, hex.mpr h.2⟩)]
    simp [h]
  · rw [if_neg (by rintro (h' | h'); · cases h'
                   · exact h ⟨h'.1, hex.mp h'.2⟩)]
    simp [h]

/-- a file with one suite of two test cases, the second one failed, and a file with the same suite again and another one -/
def exFile1 : Elem := .mk "testsuites" [] [.mk "testsuite" [("name", "a"), ("package", "p")]
  [.mk "testcase" [("name", "t1")] [], .mk "testcase" [("name", "t2")] [.mk "failure" [] []]]]
def exFile2 : Elem := .mk "testsuites" [] [.mk "testsuite" [("name", "a"), ("package", "p")] [.mk "testcase" [("name", "t3")] []],
  .mk "testsuite" [("name", "a")] [.mk "testcase" [("name", "t4")] []]]

theorem exFile_flat (f : Elem) (h : (f.iter "testsuite").all (fun s => (Elem.iterAll "testsuite" s.children).isEmpty) = true) : FlatFile f := by
  intro s hs ht c hc u hu hut
  have h1 := List.all_eq_true.mp h s ((mem_iter _ _ _).mpr ⟨hs, ht⟩)
  have h2 : u ∈ Elem.iterAll "testsuite" s.children := by
    rw [Elem.iterAll_flatMap]; exact List.mem_flatMap.mpr ⟨c, hc, (mem_iter _ _ _).mpr ⟨hu, hut⟩⟩
  rw [List.isEmpty_iff] at h1
  rw [h1] at h2
  cases h2

example : (∀ f ∈ [exFile1, exFile2], FlatFile f) ∧ combineCounts (combineFiles "r" [exFile1, exFile2]) = (2, 4) ∧
    combineRc true (combineFiles "r" [exFile1, exFile2]) = 1 ∧ combineRc false (combineFiles "r" [exFile1, exFile2]) = 0 ∧
    combineRc true (combineFiles "r" [exFile2]) = 0 := by
  refine ⟨?_, by decide +kernel, by decide +kernel, by decide +kernel, by decide +kernel⟩
  intro f hf
  simp only [List.mem_cons, List.not_mem_nil, or_false] at hf
  rcases hf with rfl | rfl
  · exact exFile_flat _ (by decide +kernel)
  · exact exFile_flat _ (by decide +kernel)

end CocotbBus
