import Verif.Model.Base

/-! # Specification vocabulary: numbers and byte strings -/

namespace CocotbBus

/-- Value of a byte string, least significant byte first. -/
def leVal : Bytes → Nat
  | [] => 0
  | b :: r => b.toNat + 256 * leVal r

/-- Value of a byte string, most significant byte first. -/
def beVal (b : Bytes) : Nat := leVal b.reverse

end CocotbBus
