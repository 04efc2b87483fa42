/-!
# `bin/combine_results.py`

The script merges the JUnit files that simulations write. Simplifications: an element is its tag, attributes and children (no text);
reading, printing and writing files are left out, `os.walk` yields the files in some order; and elements are values, while in Python
`result.append(ts)` and `use_element.extend(list(ts))` share them with the tree being iterated over. That makes no difference if no
test suite is inside another one, which is what the theorems assume and what cocotb writes.
-/

namespace CocotbBus

/-- An `xml.etree.ElementTree.Element` (bin/combine_results.py:11). -/
inductive Elem where
  | mk (tag : String) (attrs : List (String × String)) (children : List Elem)

def Elem.tag : Elem → String
  | .mk t _ _ => t
def Elem.attrs : Elem → List (String × String)
  | .mk _ a _ => a
/-- `list(e)` (bin/combine_results.py:101). -/
def Elem.children : Elem → List Elem
  | .mk _ _ c => c

/-- `e.get(key)` (bin/combine_results.py:90-92). -/
def Elem.get (e : Elem) (key : String) : Option String := (e.attrs.find? (fun a => a.1 == key)).map (·.2)

mutual
/-- `e.iter(tag)`: the element itself and everything below it, in document order (bin/combine_results.py:83, 108, 110, 112). -/
def Elem.iter (tag : String) : Elem → List Elem
  | .mk t a c => (if t = tag then [.mk t a c] else []) ++ Elem.iterAll tag c
/-- The same for a list of elements. -/
def Elem.iterAll (tag : String) : List Elem → List Elem
  | [] => []
  | e :: r => e.iter tag ++ Elem.iterAll tag r
end

/-- `existing.get("name") == ts.get("name") and existing.get("package") == ts.get("package")` (bin/combine_results.py:90-92). -/
def sameSuite (a b : Elem) : Bool := a.get "name" == b.get "name" && a.get "package" == b.get "package"

/-- `use_element.extend(list(ts))` (bin/combine_results.py:101). -/
def Elem.extend (e ts : Elem) : Elem := .mk e.tag e.attrs (e.children ++ ts.children)

/-- One turn of the loop over test suites (bin/combine_results.py:83-101): the first suite of that name and package takes the
children, else the suite is appended. -/
def addSuite : List Elem → Elem → List Elem
  | [], ts => [ts]
  | e :: r, ts => if sameSuite e ts then e.extend ts :: r else e :: addSuite r ts

/-- The two loops (bin/combine_results.py:78-101); `files` are the roots of the trees. -/
def combineFiles (suitesName : String) (files : List Elem) : Elem :=
  .mk "testsuites" [("name", suitesName)] ((files.flatMap (Elem.iter "testsuite")).foldl addSuite [])

/-- The counts (bin/combine_results.py:106-111): suites and test cases. -/
def combineCounts (result : Elem) : Nat × Nat :=
  ((result.iter "testsuite").length, ((result.iter "testsuite").flatMap (Elem.iter "testcase")).length)

/-- The return code (bin/combine_results.py:76, 108-114, 131); `setRc` is false with `--suppress_rc`. -/
def combineRc (setRc : Bool) (result : Elem) : Nat :=
  ((result.iter "testsuite").flatMap (Elem.iter "testcase")).foldl
    (fun rc tc => (tc.iter "failure").foldl (fun rc _ => if setRc then 1 else rc) rc) 0

end CocotbBus
