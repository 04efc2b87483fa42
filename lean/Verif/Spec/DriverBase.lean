import Verif.Model.DriverBase

/-! # Specification vocabulary for the driver base classes -/

namespace CocotbBus.Spec

/-- The programmed waveform: `on` ones followed by `off` zeros for each pair. -/
def wave : List (Nat × Nat) → List Logic
  | [] => []
  | (on, off) :: r => List.replicate on .one ++ List.replicate off .zero ++ wave r

/-- Idle cycles required before word number `i` (from 0) for generator pairs with non-zero `on`: none in the first
group of `on` words, `off` before the first word of the next group, and so on. -/
def gapAt : List (Nat × Nat) → Nat → Nat
  | [], _ => 0
  | (on, off) :: r, i => if i < on then 0 else if i = on then off else gapAt r (i - on)

/-- Pairs with a zero `on` are discarded. -/
def usable (g : List (Nat × Nat)) : List (Nat × Nat) := g.filter (fun p => p.1 ≠ 0)

/-- Is this poll one that ends the attachment? -/
def ends : SockRes → Bool
  | .wouldBlock => false
  | .error _ => true
  | .data b => b.length = 0

/-- Payload of a poll. -/
def payload? : SockRes → Option Bytes
  | .data b => some b
  | _ => none

end CocotbBus.Spec
