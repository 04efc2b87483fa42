import Verif.Model.AxiTests
import Verif.Spec.AxiUse

/-! # The AXI4 tests -/

namespace CocotbBus.Spec

/-- The numbers read by a call, if it returned and there are no X's in them. -/
def intsOf : Except PyErr (List LogicArray) → Option (List Nat)
  | .ok l => l.mapM asInt
  | .error _ => none

/-- A test passes: no call raised, and the words of the last read are the expected ones, given those of the first call. -/
def AxTest.Passes (c : AxCfg) (t : AxTest) (outcomes : List (Except PyErr (List LogicArray))) : Prop :=
  (∀ x ∈ outcomes, ∃ l, x = .ok l) ∧
  ∃ previous, outcomes.head?.bind intsOf = some previous ∧ outcomes.getLast?.bind intsOf = some (t.expected c previous)

/-- What the tests take care of when they draw: aligned addresses, values that fit, one strobe less than there are values, an even number of narrow values. Unaligned
accesses are INCR or FIXED. The narrow test is written for a bus of four bytes (`<< 16` in test_axi4.py:225). -/
def AxTest.Drawn (c : AxCfg) : AxTest → Prop
  | .single a _ _ _ _ => a % c.dataBytes = 0
  | .incr a vs strbs size => a % testSize c size = 0 ∧ strbs.length + 1 = vs.length ∧ strbs ≠ []
  | .sameBurst _ a vs size => a % testSize c size = 0 ∧ ∀ v ∈ vs, v < 256 ^ testSize c size
  | .narrow a vs half => a % c.dataBytes = 0 ∧ c.dataBytes = 4 ∧ half = 2 ∧ vs.length % 2 = 0 ∧ ∀ v ∈ vs, v < 256 ^ half
  | .readUnaligned burst a shift _ size => burst ≠ .wrap ∧ a % testSize c size = 0 ∧ shift < testSize c size
  | .writeUnaligned burst a shift _ _ size => burst ≠ .wrap ∧ a % testSize c size = 0 ∧ shift < testSize c size

/-- The ranges the tests draw from: at most 256 beats (FIXED: 16), the burst in one page, the address on the bus. WRAP bursts are a multiple of the bus width long (the
tests have 16 beats). -/
def AxTest.InRange (c : AxCfg) : AxTest → Prop
  | .single a _ _ _ _ => a < 2 ^ c.addrW
  | .incr a vs _ size => c.full = true ∧ BeatSize c.dataBytes size (testSize c size) ∧ 1 ≤ vs.length ∧ vs.length ≤ 256 ∧ a % 4096 + vs.length * testSize c size ≤ 4096 ∧
      a < 2 ^ c.addrW
  | .sameBurst burst a vs size => c.full = true ∧ BeatSize c.dataBytes size (testSize c size) ∧ LengthOk burst vs.length ∧
      (burst = .incr → a % 4096 + vs.length * testSize c size ≤ 4096) ∧ (burst = .wrap → c.dataBytes ∣ testSize c size * vs.length) ∧ a < 2 ^ c.addrW
  | .narrow a vs _ => c.full = true ∧ 2 ≤ vs.length ∧ vs.length ≤ 256 ∧ a % 4096 + vs.length * 2 ≤ 4096 ∧ a < 2 ^ c.addrW
  | .readUnaligned burst a shift vs size => c.full = true ∧ BeatSize c.dataBytes size (testSize c size) ∧ LengthOk burst vs.length ∧
      (burst = .incr → a % 4096 + vs.length * testSize c size ≤ 4096) ∧ a + shift < 2 ^ c.addrW
  | .writeUnaligned burst a shift _ vs size => c.full = true ∧ BeatSize c.dataBytes size (testSize c size) ∧ LengthOk burst vs.length ∧
      (burst = .incr → a % 4096 + vs.length * testSize c size ≤ 4096) ∧ a + shift < 2 ^ c.addrW

end CocotbBus.Spec
