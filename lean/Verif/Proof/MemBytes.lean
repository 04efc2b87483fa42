import Verif.Spec.AvalonMemory
import Verif.Proof.Compat

/-! # Byte lanes -/

namespace CocotbBus
open Spec

theorem byteOf_succ (n j : Nat) : byteOf n (j + 1) = byteOf (n / 256) j := by
  unfold byteOf
  rw [Nat.pow_succ', Nat.div_div_eq_div_mul]

theorem range_map_succ {α : Type} (n : Nat) (f : Nat → α) : (List.range (n + 1)).map f = f 0 :: (List.range n).map (fun j => f (j + 1)) := by
  rw [List.range_succ_eq_map, List.map_cons, List.map_map]
  rfl

theorem eq_leVal (n : Nat) : ∀ (v : Nat) (f : Nat → Byte), v < 256 ^ n → (∀ j < n, byteOf v j = f j) →
    v = leVal ((List.range n).map f) := by
  induction n with
  | zero => intro v f h _; simp at h; simp [h, leVal]
  | succ n ih =>
    intro v f h hb
    rw [range_map_succ, leVal, ← ih (v / 256) (fun j => f (j + 1))]
    · have := hb 0 (by omega)
      rw [← this]
      simp [byteOf]
      omega
    · rw [Nat.pow_succ] at h
      exact Nat.div_lt_of_lt_mul (by omega)
    · intro j hj
      rw [← hb (j + 1) (by omega), byteOf_succ]

theorem byteOf_leVal (n : Nat) : ∀ (f : Nat → Byte) (j : Nat), j < n → byteOf (leVal ((List.range n).map f)) j = f j := by
  induction n with
  | zero => intro f j h; omega
  | succ n ih =>
    intro f j h
    rw [range_map_succ, leVal]
    have hf := (f 0).isLt
    cases j with
    | zero =>
      apply BitVec.eq_of_toNat_eq
      simp [byteOf]
      omega
    | succ j =>
      rw [byteOf_succ, show ((f 0).toNat + 256 * leVal ((List.range n).map fun j => f (j + 1))) / 256 = leVal ((List.range n).map fun j => f (j + 1)) by
        omega]
      exact ih _ j (by omega)

theorem leVal_range_lt (n : Nat) (f : Nat → Byte) : leVal ((List.range n).map f) < 256 ^ n := by
  have := leVal_lt ((List.range n).map f)
  simpa using this

theorem testBit_ff (i p : Nat) : (0xFF <<< (8 * i)).testBit p = decide (8 * i ≤ p ∧ p < 8 * i + 8) := by
  rw [Nat.testBit_shiftLeft, show (0xFF : Nat) = 2 ^ 8 - 1 by rfl, Nat.testBit_two_pow_sub_one]
  by_cases h : 8 * i ≤ p <;> simp [h]
  omega

theorem and_two_pow (n i : Nat) : n &&& 2 ^ i = (n.testBit i).toNat * 2 ^ i := by
  apply Nat.eq_of_testBit_eq
  intro p
  rw [Nat.testBit_and, Nat.testBit_two_pow]
  by_cases h : i = p
  · subst h
    cases n.testBit i <;> simp
  · cases n.testBit i <;> simp [h]

theorem memMasks_testBit (be n : Nat) : ∀ (i m o p : Nat),
    (memMasks be n i (m, o)).1.testBit p = (m.testBit p || decide (8 * i ≤ p ∧ p < 8 * (i + n)) && be.testBit (p / 8)) ∧
    (memMasks be n i (m, o)).2.testBit p = (o.testBit p || decide (8 * i ≤ p ∧ p < 8 * (i + n)) && !be.testBit (p / 8)) := by
  induction n with
  | zero =>
    intro i m o p
    rw [show decide (8 * i ≤ p ∧ p < 8 * (i + 0)) = false by rw [decide_eq_false_iff_not]; omega]
    simp [memMasks]
  | succ n ih =>
    intro i m o p
    rw [memMasks, and_two_pow]
    have hlane : 8 * i ≤ p ∧ p < 8 * i + 8 → p / 8 = i := by omega
    cases hb : be.testBit i with
    | true =>
      rw [if_pos (by simp)]
      obtain ⟨h1, h2⟩ := ih (i + 1) (m ||| 0xFF <<< (8 * i)) o p
      rw [h1, h2, Nat.testBit_or, testBit_ff]
      by_cases hl : 8 * i ≤ p ∧ p < 8 * i + 8
      · rw [hlane hl, hb]
        simp [hl]
        omega
      · rw [show decide (8 * i ≤ p ∧ p < 8 * i + 8) = false by simpa using hl,
          show decide (8 * (i + 1) ≤ p ∧ p < 8 * (i + 1 + n)) = decide (8 * i ≤ p ∧ p < 8 * (i + (n + 1))) by
            rw [decide_eq_decide]; omega]
        simp
    | false =>
      rw [if_neg (by simp)]
      obtain ⟨h1, h2⟩ := ih (i + 1) m (o ||| 0xFF <<< (8 * i)) p
      rw [h1, h2, Nat.testBit_or, testBit_ff]
      by_cases hl : 8 * i ≤ p ∧ p < 8 * i + 8
      · rw [hlane hl, hb]
        simp [hl]
        omega
      · rw [show decide (8 * i ≤ p ∧ p < 8 * i + 8) = false by simpa using hl,
          show decide (8 * (i + 1) ≤ p ∧ p < 8 * (i + 1 + n)) = decide (8 * i ≤ p ∧ p < 8 * (i + (n + 1))) by
            rw [decide_eq_decide]; omega]
        simp

theorem pow256 (j : Nat) : 256 ^ j = 2 ^ (8 * j) := by rw [Nat.pow_mul]

theorem byteOf_getLsbD (n j p : Nat) : (byteOf n j).getLsbD p = (decide (p < 8) && n.testBit (8 * j + p)) := by
  unfold byteOf
  rw [BitVec.getLsbD_ofNat, pow256, Nat.testBit_div_two_pow, Nat.add_comm]

theorem byteOf_memMerge (c : MemCfg) (data be old j : Nat) (hj : j < c.width / 8) :
    byteOf (memMerge c data be old) j = if be.testBit j then byteOf data j else byteOf old j := by
  apply BitVec.eq_of_getLsbD_eq
  intro p hp
  have hdiv : (8 * j + p) / 8 = j := by omega
  obtain ⟨h1, h2⟩ := memMasks_testBit be (c.width / 8) 0 0 0 (8 * j + p)
  rw [hdiv, show decide (8 * 0 ≤ 8 * j + p ∧ 8 * j + p < 8 * (0 + c.width / 8)) = true by rw [decide_eq_true_eq]; omega] at h1 h2
  simp only [Nat.zero_testBit, Bool.false_or, Bool.true_and] at h1 h2
  cases hb : be.testBit j <;>
    simp [byteOf_getLsbD, memMerge, Nat.testBit_or, Nat.testBit_and, h1, h2, hb]

theorem memMerge_lt (c : MemCfg) (data be old : Nat) : memMerge c data be old < 256 ^ (c.width / 8) := by
  rw [pow256]
  apply Nat.lt_pow_two_of_testBit
  intro p hp
  obtain ⟨h1, h2⟩ := memMasks_testBit be (c.width / 8) 0 0 0 p
  rw [show decide (8 * 0 ≤ p ∧ p < 8 * (0 + c.width / 8)) = false by rw [decide_eq_false_iff_not]; omega] at h1 h2
  simp [memMerge, Nat.testBit_or, Nat.testBit_and, h1, h2]

end CocotbBus
