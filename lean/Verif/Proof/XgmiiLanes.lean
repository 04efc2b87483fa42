import Verif.Model.Xgmii
import Verif.Proof.AvalonMM

namespace CocotbBus
open Coro

/-- bit position of the byte and of the control bit of a lane -/
def dpos (c : XgCfg) (i : Nat) : Nat := if c.interleaved then i * 9 else i * 8
def cpos (c : XgCfg) (i : Nat) : Nat := if c.interleaved then 9 * i + 8 else c.nbytes * 8 + i

/-- the integer holds these lanes -/
structure Rep (c : XgCfg) (g : List Lane) (w : Nat) : Prop where
  len : g.length = c.nbytes
  lt : w < 2 ^ (c.nbytes * 9)
  data : ∀ (i : Nat) (l : Lane), g[i]? = some l → ∀ j : Nat, j < 8 → w.testBit (dpos c i + j) = l.1.toNat.testBit j
  ctrl : ∀ (i : Nat) (l : Lane), g[i]? = some l → w.testBit (cpos c i) = l.2

theorem testBit_byte (b : Byte) (m : Nat) (h : 8 ≤ m) : b.toNat.testBit m = false :=
  Nat.testBit_lt_two_pow (Nat.lt_of_lt_of_le b.isLt (Nat.pow_le_pow_right (by decide) h))

theorem testBit_flag (f : Bool) (m : Nat) : f.toNat.testBit m = (f && decide (m = 0)) := by
  cases f with
  | false => simp
  | true =>
    cases m with
    | zero => rfl
    | succ m => rw [Bool.toNat_true, Nat.testBit_lt_two_pow]
                · simp
                · exact Nat.one_lt_two_pow (by omega)

theorem rep_zero (c : XgCfg) : Rep c (List.replicate c.nbytes (0#8, false)) 0 := by
  have hget : ∀ (i : Nat) (l : Lane), (List.replicate c.nbytes ((0#8, false) : Lane))[i]? = some l → l = (0#8, false) := by
    intro i l h
    exact List.eq_of_mem_replicate (List.mem_of_getElem? h)
  refine ⟨by simp, Nat.pow_pos (by decide), fun i l h j _ => ?_, fun i l h => ?_⟩
  · rw [hget i l h]; simp
  · rw [hget i l h]; simp

theorem rep_set (c : XgCfg) (L R : List Lane) (w : Nat) (b : Byte) (f : Bool) (h : Rep c (L ++ (0#8, false) :: R) w) :
    ∃ w', xgSetItem c L.length b f w = .ok w' ∧ Rep c (L ++ (b, f) :: R) w' := by
  have hn : L.length < c.nbytes := by rw [← h.len]; simp
  refine ⟨w ||| b.toNat <<< dpos c L.length ||| f.toNat <<< cpos c L.length, ?_, ?_⟩
  · unfold xgSetItem dpos cpos
    rw [if_neg (by omega)]
    split <;> rfl
  have hD : ∀ k j, j < 8 → k < c.nbytes → (w ||| b.toNat <<< dpos c L.length ||| f.toNat <<< cpos c L.length).testBit (dpos c k + j) =
      if k = L.length then (w.testBit (dpos c k + j) || b.toNat.testBit j) else w.testBit (dpos c k + j) := by
    intro k j hj hk
    rw [Nat.testBit_or, Nat.testBit_or, Nat.testBit_shiftLeft, Nat.testBit_shiftLeft, testBit_flag]
    have h2 : (decide (dpos c k + j ≥ cpos c L.length) && (f && decide (dpos c k + j - cpos c L.length = 0))) = false := by
      by_cases h1 : dpos c k + j ≥ cpos c L.length
      · have : dpos c k + j - cpos c L.length ≠ 0 := by
          unfold dpos cpos at *
          split at h1 <;> split <;> simp_all <;> omega
        simp [this]
      · simp [h1]
    rw [h2, Bool.or_false]
    split
    · rename_i he; subst he
      simp
    · rename_i hne
      have : (decide (dpos c k + j ≥ dpos c L.length) && b.toNat.testBit (dpos c k + j - dpos c L.length)) = false := by
        by_cases h1 : dpos c k + j ≥ dpos c L.length
        · rw [testBit_byte _ _ (by unfold dpos at *; split at h1 <;> simp_all <;> omega)]; simp
        · simp [h1]
      rw [this, Bool.or_false]
  have hC : ∀ k, k < c.nbytes → (w ||| b.toNat <<< dpos c L.length ||| f.toNat <<< cpos c L.length).testBit (cpos c k) =
      if k = L.length then (w.testBit (cpos c k) || f) else w.testBit (cpos c k) := by
    intro k hk
    rw [Nat.testBit_or, Nat.testBit_or, Nat.testBit_shiftLeft, Nat.testBit_shiftLeft, testBit_flag]
    have h2 : (decide (cpos c k ≥ dpos c L.length) && b.toNat.testBit (cpos c k - dpos c L.length)) = false := by
      by_cases h1 : cpos c k ≥ dpos c L.length
      · rw [testBit_byte _ _ (by unfold cpos dpos at *; split at h1 <;> simp_all <;> omega)]; simp
      · simp [h1]
    rw [h2, Bool.or_false]
    split
    · rename_i he; subst he
      simp
    · rename_i hne
      have : (decide (cpos c k ≥ cpos c L.length) && (f && decide (cpos c k - cpos c L.length = 0))) = false := by
        by_cases h1 : cpos c k ≥ cpos c L.length
        · have : cpos c k - cpos c L.length ≠ 0 := by unfold cpos at *; split at h1 <;> simp_all <;> omega
          simp [this]
        · simp [h1]
      rw [this, Bool.or_false]
  have hget : ∀ (i : Nat) (l : Lane), (L ++ (b, f) :: R)[i]? = some l → i < c.nbytes ∧
      ((i = L.length ∧ l = (b, f)) ∨ (i ≠ L.length ∧ (L ++ (0#8, false) :: R)[i]? = some l)) := by
    intro i l hi
    have hlt : i < c.nbytes := by
      obtain ⟨hl, _⟩ := List.getElem?_eq_some_iff.1 hi
      have := h.len
      simp at hl this; omega
    refine ⟨hlt, ?_⟩
    by_cases he : i = L.length
    · subst he
      simp at hi
      exact .inl ⟨rfl, hi.symm⟩
    · right
      refine ⟨he, ?_⟩
      rcases Nat.lt_or_ge i L.length with h1 | h1
      · rw [List.getElem?_append_left h1] at hi ⊢; exact hi
      · rw [List.getElem?_append_right h1] at hi ⊢
        obtain ⟨k, hk⟩ : ∃ k, i - L.length = k + 1 := ⟨i - L.length - 1, by omega⟩
        rw [hk] at hi ⊢
        simpa using hi
  have hself : (L ++ ((0#8, false) : Lane) :: R)[L.length]? = some (0#8, false) := by simp
  refine ⟨?_, ?_, fun i l hi j hj => ?_, fun i l hi => ?_⟩
  · have := h.len; simp at this ⊢; exact this
  · have hb : b.toNat <<< dpos c L.length < 2 ^ (c.nbytes * 9) := by
      rw [Nat.shiftLeft_eq]
      have : b.toNat * 2 ^ dpos c L.length < 2 ^ 8 * 2 ^ dpos c L.length := Nat.mul_lt_mul_of_pos_right b.isLt (Nat.pow_pos (by decide))
      rw [← Nat.pow_add] at this
      refine Nat.lt_of_lt_of_le this (Nat.pow_le_pow_right (by decide) ?_)
      unfold dpos; split <;> omega
    have hf : f.toNat <<< cpos c L.length < 2 ^ (c.nbytes * 9) := by
      rw [Nat.shiftLeft_eq]
      have h1 : f.toNat * 2 ^ cpos c L.length < 2 ^ 1 * 2 ^ cpos c L.length :=
        Nat.mul_lt_mul_of_pos_right (by cases f <;> decide) (Nat.pow_pos (by decide))
      rw [← Nat.pow_add] at h1
      refine Nat.lt_of_lt_of_le h1 (Nat.pow_le_pow_right (by decide) ?_)
      unfold cpos; split <;> omega
    exact Nat.or_lt_two_pow (Nat.or_lt_two_pow h.lt hb) hf
  · obtain ⟨hlt, h1 | ⟨h1, h2⟩⟩ := hget i l hi
    · obtain ⟨rfl, rfl⟩ := h1
      rw [hD _ j hj hlt, if_pos rfl, h.data _ _ hself j hj]; simp
    · rw [hD _ j hj hlt, if_neg h1, h.data _ _ h2 j hj]
  · obtain ⟨hlt, h1 | ⟨h1, h2⟩⟩ := hget i l hi
    · obtain ⟨rfl, rfl⟩ := h1
      rw [hC _ hlt, if_pos rfl, h.ctrl _ _ hself]; simp
    · rw [hC _ hlt, if_neg h1, h.ctrl _ _ h2]

theorem natToBits_resolvable (w n : Nat) : isResolvable (natToBits w n) = true := by
  induction w generalizing n with
  | zero => rfl
  | succ w ih =>
    unfold natToBits isResolvable
    rw [List.all_append]
    have := ih (n / 2)
    unfold isResolvable at this
    rw [this]
    cases h : (n % 2 == 1) <;> simp [Logic.ofBool, Logic.isResolvable]

/-- the monitor decodes what the driver packed -/
theorem rep_decode (c : XgCfg) (g : List Lane) (w : Nat) (h : Rep c g w) : xgLanes c (natToBits (c.nbytes * 9) w) = .ok g := by
  unfold xgLanes toUnsigned
  rw [if_pos (natToBits_resolvable _ _), bitsToNat_natToBits, Nat.mod_eq_of_lt h.lt]
  simp only [Except.ok.injEq]
  apply List.ext_getElem?
  intro i
  rw [List.getElem?_map]
  rcases Nat.lt_or_ge i c.nbytes with hi | hi
  · rw [List.getElem?_range hi]
    have hg : i < g.length := by rw [h.len]; exact hi
    obtain ⟨l, hl⟩ : ∃ l, g[i]? = some l := ⟨_, List.getElem?_eq_getElem hg⟩
    rw [hl]
    have hd : i * (if c.interleaved = true then 9 else 8) = dpos c i := by unfold dpos; split <;> rfl
    have hc : (if c.interleaved = true then 8 else 8 * c.nbytes) + i * (if c.interleaved = true then 9 else 1) = cpos c i := by
      unfold cpos; split <;> omega
    simp only [Option.map_some, hd, hc, Option.some.injEq]
    refine Prod.ext ?_ ?_
    · simp only []
      apply BitVec.eq_of_toNat_eq
      rw [BitVec.toNat_ofNat]
      apply Nat.eq_of_testBit_eq
      intro j
      rw [Nat.testBit_mod_two_pow, Nat.testBit_and, Nat.testBit_shiftRight]
      by_cases hj : j < 8
      · have h255 : Nat.testBit 255 j = true := by
          rw [show (255 : Nat) = 2 ^ 8 - 1 from rfl, Nat.testBit_two_pow_sub_one]; simpa using hj
        rw [h255, h.data i l hl j hj]
        simp [hj]
      · rw [testBit_byte _ _ (by omega)]; simp [hj]
    · simp only []
      rw [← h.ctrl i l hl]
      have : (w &&& 1 <<< cpos c i != 0) = w.testBit (cpos c i) := by
        rw [Nat.one_shiftLeft]
        cases hb : w.testBit (cpos c i) with
        | false =>
          have : w &&& 2 ^ cpos c i = 0 := by
            apply Nat.eq_of_testBit_eq
            intro j
            rw [Nat.testBit_and, Nat.testBit_two_pow]
            by_cases hj : cpos c i = j
            · rw [← hj, hb]; simp
            · simp [hj]
          simp [this]
        | true =>
          have : w &&& 2 ^ cpos c i ≠ 0 := by
            intro h0
            have h1 : (w &&& 2 ^ cpos c i).testBit (cpos c i) = true := by
              rw [Nat.testBit_and, Nat.testBit_two_pow, hb]; simp
            rw [h0] at h1; simp at h1
          simpa using this
      rw [this]
  · rw [List.getElem?_eq_none (by simpa using hi), List.getElem?_eq_none (by rw [h.len]; exact hi)]
    rfl

end CocotbBus
