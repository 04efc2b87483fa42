import Verif.Model.Combine

/-! # Vocabulary for `combine_results.py` -/

namespace CocotbBus.Spec

/-- `e` is `x` or somewhere below it. -/
inductive Within (e : Elem) : Elem → Prop
  | self : Within e e
  | child (x c : Elem) : c ∈ x.children → Within e c → Within e x

/-- No test suite of the file is inside another one. -/
def FlatFile (f : Elem) : Prop :=
  ∀ s, Within s f → s.tag = "testsuite" → ∀ c ∈ s.children, ∀ u, Within u c → u.tag ≠ "testsuite"

/-- What makes two test suites the same: name and package. -/
def suiteKey (e : Elem) : Option String × Option String := (e.attrs.lookup "name", e.attrs.lookup "package")

/-- A test case, in a test suite of one of the files, with a failure. -/
def SomeFailure (files : List Elem) : Prop :=
  ∃ f ∈ files, ∃ s, Within s f ∧ s.tag = "testsuite" ∧ ∃ tc, Within tc s ∧ tc.tag = "testcase" ∧ ∃ x, Within x tc ∧ x.tag = "failure"

end CocotbBus.Spec
