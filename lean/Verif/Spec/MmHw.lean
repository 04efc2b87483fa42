import Verif.Spec.MmUse
import Verif.Model.MmHw

/-! # The memory-mapped test -/

namespace CocotbBus.Spec

/-- The address is one of a memory of `words` words. -/
def InMemory (words : Nat) : MmOp → Prop
  | .write a _ => a < words
  | .read a => a < words
  | .pause _ => True

/-- The memory holds these words; those that have not been written are X's. -/
def MmHw.Holds (words w : Nat) (d : MmHw) (init : Nat → Option Nat) : Prop := ∀ a < words, d.mem a = memWordBits w (init a)

end CocotbBus.Spec
