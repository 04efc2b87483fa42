import Verif.Spec.Xgmii
import Mathlib.Data.List.Forall2

/-! # Frames that are damaged on the way -/

namespace CocotbBus.Spec

/-- The bits of some bytes in the order of transmission: the least significant bit of a byte first. -/
def lineBits (m : Bytes) : List Bool := m.flatMap fun b => (List.range 8).map b.getLsbD

/-- Not the same, and all differences lie within `k` consecutive bits. -/
def Burst (k : Nat) (a b : Bytes) : Prop :=
  a ≠ b ∧ ∃ i, ∀ j, (lineBits a)[j]? ≠ (lineBits b)[j]? → i ≤ j ∧ j < i + k

/-- The same but for two bits. -/
def TwoBits (a b : Bytes) : Prop :=
  ∃ i j : Nat, i < j ∧ ∀ n, (lineBits a)[n]? ≠ (lineBits b)[n]? ↔ (n = i ∨ n = j)

/-- Words as they leave the driver and as they arrive: data bytes may change, control characters do not, and no lane changes from data to
control or back. -/
def OnLine (sent got : List (List Lane)) : Prop := List.Forall₂ (List.Forall₂ fun a b => a = b ∨ (a.2 = false ∧ b.2 = false)) sent got

/-- The frames in a sequence of words: the data bytes between control characters. -/
def frames (ws : List (List Lane)) : List Bytes := ((ws.flatten.splitOnP Prod.snd).map (·.map Prod.fst)).filter (· ≠ [])

/-- An error is logged that says that the frame is damaged. -/
def Noticed (ev : List XgEvent) : Prop := .preamble ∈ ev ∨ .badCrc ∈ ev

end CocotbBus.Spec
