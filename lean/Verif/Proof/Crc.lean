import Verif.Model.Crc
import Mathlib.Tactic.NormNum.Prime
import Mathlib.Dynamics.PeriodicPts.Defs

/-! # The check sum is linear, and what it detects -/

namespace CocotbBus.Crc

/-- one bit of the message -/
def feed (r : BitVec 32) (b : Bool) : BitVec 32 := crcBit (r ^^^ (BitVec.ofBool b).setWidth 32)

theorem xor_left (a b c : BitVec 32) : a ^^^ (b ^^^ c) = b ^^^ (a ^^^ c) := by
  rw [← BitVec.xor_assoc, BitVec.xor_comm a b, BitVec.xor_assoc]

theorem xor_cancel (a b : BitVec 32) : a ^^^ (a ^^^ b) = b := by
  rw [← BitVec.xor_assoc, BitVec.xor_self, BitVec.zero_xor]

theorem crcBit_xor (a b : BitVec 32) : crcBit (a ^^^ b) = crcBit a ^^^ crcBit b := by
  unfold crcBit
  rw [BitVec.getLsbD_xor, BitVec.ushiftRight_xor_distrib]
  cases a.getLsbD 0 <;> cases b.getLsbD 0 <;> simp [BitVec.xor_assoc]
  · exact BitVec.xor_comm _ _
  · rw [xor_left _ (b >>> 1), BitVec.xor_self, BitVec.xor_zero]

theorem crcBit_zero : crcBit 0#32 = 0#32 := by decide

theorem crcBit_ne (r : BitVec 32) (h : crcBit r = 0#32) : r = 0#32 := by
  have h31 : (crcBit r).getLsbD 31 = r.getLsbD 0 := by
    unfold crcBit
    rw [BitVec.getLsbD_xor, BitVec.getLsbD_ushiftRight]
    cases hb : r.getLsbD 0
    · simp
    · simp
  have h0 : r.getLsbD 0 = false := by rw [← h31, h]; simp
  have hs : r >>> 1 = 0#32 := by
    unfold crcBit at h
    rw [h0] at h
    simpa using h
  apply BitVec.eq_of_getLsbD_eq
  intro i hi
  cases i with
  | zero => rw [h0]; simp
  | succ i =>
    have := congrArg (fun x => x.getLsbD i) hs
    simp only [BitVec.getLsbD_ushiftRight] at this
    rw [Nat.add_comm] at this
    rw [this]; simp

theorem iter_xor (n : Nat) : ∀ a b, crcBit^[n] (a ^^^ b) = crcBit^[n] a ^^^ crcBit^[n] b := by
  induction n with
  | zero => intro a b; rfl
  | succ n ih => intro a b; simp only [Function.iterate_succ_apply, crcBit_xor, ih]

theorem iter_zero (n : Nat) : crcBit^[n] 0#32 = 0#32 := by
  induction n with
  | zero => rfl
  | succ n ih => rw [Function.iterate_succ_apply, crcBit_zero, ih]

theorem iter_ne (n : Nat) : ∀ r, crcBit^[n] r = 0#32 → r = 0#32 := by
  induction n with
  | zero => intro r h; exact h
  | succ n ih => intro r h; rw [Function.iterate_succ_apply] at h; exact crcBit_ne _ (ih _ h)

theorem iter_inj (n : Nat) (a b : BitVec 32) (h : crcBit^[n] a = crcBit^[n] b) : a = b := by
  have : crcBit^[n] (a ^^^ b) = 0#32 := by rw [iter_xor, h, BitVec.xor_self]
  exact BitVec.xor_eq_zero_iff.1 (iter_ne n _ this)

/-- bits as a number, least significant first -/
def word : List Bool → BitVec 32
  | [] => 0#32
  | b :: l => (BitVec.ofBool b).setWidth 32 ^^^ (word l <<< 1)

theorem word_bit (l : List Bool) : ∀ i, i < 32 → (word l).getLsbD i = l.getD i false := by
  induction l with
  | nil => intro i hi; simp [word]
  | cons b l ih =>
    intro i hi
    rw [word, BitVec.getLsbD_xor, BitVec.getLsbD_shiftLeft]
    cases i with
    | zero => simp
    | succ i => simp [ih i (by omega)]; omega

theorem crcBit_shift (w : BitVec 32) (h : w.getLsbD 31 = false) : crcBit (w <<< 1) = w := by
  unfold crcBit
  have h0 : (w <<< 1).getLsbD 0 = false := by simp
  rw [h0]
  apply BitVec.eq_of_getLsbD_eq
  intro i hi
  simp only [Bool.false_eq_true, if_false, BitVec.xor_zero, BitVec.getLsbD_ushiftRight, BitVec.getLsbD_shiftLeft]
  by_cases h1 : i = 31
  · subst h1; rw [h]; simp
  · have : 1 + i < 32 := by omega
    simp [this]

/-- up to 32 bits at once -/
theorem feed_word (l : List Bool) : l.length ≤ 32 → ∀ r, l.foldl feed r = crcBit^[l.length] (r ^^^ word l) := by
  induction l with
  | nil => intro _ r; simp [word]
  | cons b l ih =>
    intro hl r
    simp only [List.length_cons] at hl
    rw [List.foldl_cons, ih (by omega), List.length_cons, Function.iterate_succ_apply]
    congr 1
    have : (word l).getLsbD 31 = false := by
      rw [word_bit l 31 (by decide)]
      simp [List.getD_eq_getElem?_getD, List.getElem?_eq_none (show l.length ≤ 31 by omega)]
    rw [word, ← BitVec.xor_assoc, crcBit_xor, crcBit_shift _ this]
    rfl

/-- the bits of a byte -/
def byteBits (b : Byte) : List Bool := (List.range 8).map b.getLsbD

theorem word_byte (b : Byte) : word (byteBits b) = b.setWidth 32 := by
  apply BitVec.eq_of_getLsbD_eq
  intro i hi
  rw [word_bit _ i hi]
  simp only [byteBits, List.getD_eq_getElem?_getD, List.getElem?_map, BitVec.getLsbD_setWidth, hi, decide_true, Bool.true_and]
  by_cases h : i < 8
  · rw [List.getElem?_range h]; rfl
  · rw [List.getElem?_eq_none (by simp; omega)]
    simp [BitVec.getLsbD_of_ge b i (by omega)]

theorem byte_feed (b : Byte) (r : BitVec 32) : crcByte r b = (byteBits b).foldl feed r := by
  rw [feed_word _ (by simp [byteBits]), word_byte]
  simp [byteBits, crcByte]

/-- the bits of a message -/
def bits (m : Bytes) : List Bool := m.flatMap byteBits

theorem bytes_feed (m : Bytes) : ∀ r, m.foldl crcByte r = (bits m).foldl feed r := by
  induction m with
  | nil => intro r; rfl
  | cons b m ih =>
    intro r
    rw [List.foldl_cons, ih, byte_feed]
    simp [bits]

theorem feed_xor (l : List Bool) : ∀ (l' : List Bool) (r r' : BitVec 32), l.length = l'.length →
    l.foldl feed r ^^^ l'.foldl feed r' = (List.zipWith xor l l').foldl feed (r ^^^ r') := by
  induction l with
  | nil =>
    intro l' r r' h
    have : l' = [] := List.eq_nil_of_length_eq_zero h.symm
    subst this; rfl
  | cons b l ih =>
    intro l' r r' h
    cases l' with
    | nil => cases h
    | cons b' l' =>
      simp only [List.foldl_cons, List.zipWith_cons_cons]
      rw [ih l' _ _ (by simpa using h)]
      congr 1
      unfold feed
      rw [← crcBit_xor]
      congr 1
      rw [BitVec.xor_assoc, xor_left _ r', ← BitVec.xor_assoc]
      congr 1
      cases b <;> cases b' <;> rfl

theorem feed_none (n : Nat) (r : BitVec 32) : (List.replicate n false).foldl feed r = crcBit^[n] r := by
  induction n generalizing r with
  | zero => rfl
  | succ n ih => rw [List.replicate_succ, List.foldl_cons, ih, Function.iterate_succ_apply]; simp [feed]

/-- an error in at most 32 consecutive bits -/
theorem burst_ne (a b : Nat) (w : List Bool) (hw : w.length ≤ 32) (ht : true ∈ w) :
    (List.replicate a false ++ w ++ List.replicate b false).foldl feed 0#32 ≠ 0#32 := by
  rw [List.foldl_append, List.foldl_append, feed_none b, feed_none a, iter_zero]
  intro h
  have h1 := iter_ne _ _ h
  rw [feed_word w hw] at h1
  have h2 := iter_ne _ _ h1
  rw [BitVec.zero_xor] at h2
  obtain ⟨i, hi, he⟩ := List.mem_iff_getElem.1 ht
  have h3 := word_bit w i (by omega)
  rw [h2] at h3
  simp [List.getD_eq_getElem?_getD, List.getElem?_eq_getElem hi, he] at h3

/-- errors given by where they may be -/
theorem burst_pos (e : List Bool) (i k : Nat) (hk : k ≤ 32) (ht : true ∈ e) (h : ∀ j, e[j]? = some true → i ≤ j ∧ j < i + k) : e.foldl feed 0#32 ≠ 0#32 := by
  have hfalse : ∀ l : List Bool, true ∉ l → l = List.replicate l.length false := by
    intro l hl
    rw [List.eq_replicate_iff]
    refine ⟨rfl, fun b hb => ?_⟩
    cases b
    · rfl
    · exact absurd hb hl
  have h1 : e = e.take i ++ (e.drop i).take k ++ (e.drop i).drop k := by
    rw [List.append_assoc, List.take_append_drop, List.take_append_drop]
  have h2 : true ∉ e.take i := by
    intro hm
    obtain ⟨j, hj, he⟩ := List.mem_iff_getElem.1 hm
    have hj' : j < i := by simp at hj; omega
    have := h j (by rw [← he, List.getElem_take]; exact List.getElem?_eq_getElem _)
    omega
  have h3 : true ∉ (e.drop i).drop k := by
    intro hm
    obtain ⟨j, hj, he⟩ := List.mem_iff_getElem.1 hm
    rw [List.getElem_drop, List.getElem_drop] at he
    have := h (i + (k + j)) (by rw [← he]; exact List.getElem?_eq_getElem _)
    omega
  have h4 : true ∈ (e.drop i).take k := by
    rw [h1, List.mem_append, List.mem_append] at ht
    tauto
  rw [h1, hfalse _ h2, hfalse _ h3]
  exact burst_ne _ _ _ (by simp; omega) h4

/-! ### Two wrong bits: the period -/

/-- a linear function, given by the images of the unit vectors from the `i`-th on -/
def lin : List (BitVec 32) → Nat → BitVec 32 → BitVec 32
  | [], _, _ => 0#32
  | c :: cs, i, v => (if v.getLsbD i then c else 0#32) ^^^ lin cs (i + 1) v

/-- the unit vectors from the `i`-th on -/
def unitsFrom : Nat → Nat → List (BitVec 32)
  | 0, _ => []
  | n + 1, i => BitVec.ofNat 32 (2 ^ i) :: unitsFrom n (i + 1)

def units : List (BitVec 32) := unitsFrom 32 0

theorem unit_bit (i j : Nat) (hj : j < 32) : (BitVec.ofNat 32 (2 ^ i)).getLsbD j = decide (i = j) := by
  rw [BitVec.getLsbD_ofNat, Nat.testBit_two_pow]
  simp [hj]

theorem lin_units (n : Nat) : ∀ i v j, j < 32 → (lin (unitsFrom n i) i v).getLsbD j = (decide (i ≤ j ∧ j < i + n) && v.getLsbD j) := by
  induction n with
  | zero =>
    intro i v j hj
    have : ¬ (i ≤ j ∧ j < i + 0) := by omega
    rw [decide_eq_false this]
    simp [unitsFrom, lin]
  | succ n ih =>
    intro i v j hj
    rw [unitsFrom, lin, BitVec.getLsbD_xor, ih (i + 1) v j hj]
    by_cases h : i = j
    · subst h
      have h1 : ¬ (i + 1 ≤ i ∧ i < i + 1 + n) := by omega
      have h2 : i ≤ i ∧ i < i + (n + 1) := by omega
      simp only [h1, h2, decide_false, Bool.false_and, Bool.xor_false]
      cases hv : v.getLsbD i
      · simp
      · simp only [if_true]; rw [unit_bit i i hj]; simp
    · have h1 : (i + 1 ≤ j ∧ j < i + 1 + n) ↔ (i ≤ j ∧ j < i + (n + 1)) := by omega
      have h2 : (if v.getLsbD i = true then BitVec.ofNat 32 (2 ^ i) else 0#32).getLsbD j = false := by
        split
        · rw [unit_bit i j hj]; simp [h]
        · simp
      rw [h2, Bool.false_xor]
      simp only [h1]

theorem lin_id (v : BitVec 32) : lin units 0 v = v := by
  apply BitVec.eq_of_getLsbD_eq
  intro j hj
  rw [units, lin_units 32 0 v j hj]
  have : 0 ≤ j ∧ j < 0 + 32 := by omega
  simp [this]

theorem lin_map (f : BitVec 32 → BitVec 32) (hx : ∀ a b, f (a ^^^ b) = f a ^^^ f b) (h0 : f 0#32 = 0#32) (cs : List (BitVec 32)) :
    ∀ i v, lin (cs.map f) i v = f (lin cs i v) := by
  induction cs with
  | nil => intro i v; exact h0.symm
  | cons c cs ih =>
    intro i v
    rw [List.map_cons, lin, lin, hx, ih]
    split
    · rfl
    · rw [h0]

/-- `n` times `f`, where `cols` are the images of the unit vectors under `f` -/
def jump : Nat → Nat → List (BitVec 32) → BitVec 32 → BitVec 32
  | 0, _, _, v => v
  | k + 1, n, cols, v => jump k (n / 2) (cols.map (lin cols 0)) (if n % 2 = 1 then lin cols 0 v else v)

theorem jump_iter (k : Nat) : ∀ n m v, n < 2 ^ k → jump k n (units.map crcBit^[m]) v = crcBit^[m * n] v := by
  induction k with
  | zero =>
    intro n m v h
    have : n = 0 := by simpa using h
    subst this; rfl
  | succ k ih =>
    intro n m v h
    have hl : ∀ v, lin (units.map crcBit^[m]) 0 v = crcBit^[m] v := fun v => by
      rw [lin_map _ (iter_xor m) (iter_zero m), lin_id]
    have hsq : (units.map crcBit^[m]).map (lin (units.map crcBit^[m]) 0) = units.map crcBit^[m + m] := by
      rw [List.map_map]
      apply List.map_congr_left
      intro x _
      show lin (units.map crcBit^[m]) 0 (crcBit^[m] x) = _
      rw [hl, Function.iterate_add_apply]
    rw [jump, hsq, ih (n / 2) (m + m) _ (by rw [pow_succ] at h; omega)]
    have h2 := Nat.div_add_mod n 2
    rcases Nat.mod_two_eq_zero_or_one n with h0 | h1
    · rw [if_neg (by omega)]
      congr 1
      have : n = 2 * (n / 2) := by omega
      conv => rhs; rw [this]
      rw [show m + m = m * 2 by omega, Nat.mul_assoc]
    · rw [if_pos h1, hl, ← Function.iterate_add_apply]
      congr 1
      have : n = 2 * (n / 2) + 1 := by omega
      conv => rhs; rw [this]
      rw [show m + m = m * 2 by omega, Nat.mul_assoc, Nat.mul_add, Nat.mul_one]

theorem jump_eq (n : Nat) (h : n < 2 ^ 32) : crcBit^[n] 1#32 = jump 32 n (units.map crcBit) 1#32 := by
  have := jump_iter 32 n 1 1#32 h
  rw [Function.iterate_one, Nat.one_mul] at this
  exact this.symm

theorem period : crcBit^[2 ^ 32 - 1] 1#32 = 1#32 := by
  rw [jump_eq _ (by decide)]
  decide +kernel

theorem period_div (q : Nat) (h : q = 3 ∨ q = 5 ∨ q = 17 ∨ q = 257 ∨ q = 65537) : crcBit^[(2 ^ 32 - 1) / q] 1#32 ≠ 1#32 := by
  rcases h with rfl | rfl | rfl | rfl | rfl <;> (rw [jump_eq _ (by decide)]; decide +kernel)

/-- a proper divisor of `2 ^ 32 - 1` divides one of the five largest ones -/
theorem divisor (d : Nat) (h : d ∣ 2 ^ 32 - 1) (hd : d ≠ 2 ^ 32 - 1) : ∃ q, (q = 3 ∨ q = 5 ∨ q = 17 ∨ q = 257 ∨ q = 65537) ∧ d ∣ (2 ^ 32 - 1) / q := by
  obtain ⟨k, hk⟩ := h
  have hk1 : k ≠ 1 := by
    rintro rfl
    exact hd (by rw [hk, Nat.mul_one])
  obtain ⟨q, hq, hqk⟩ := Nat.exists_prime_and_dvd hk1
  have hqn : q ∣ 3 * 5 * 17 * 257 * 65537 := by
    have : q ∣ 2 ^ 32 - 1 := hk ▸ Dvd.dvd.mul_left hqk d
    have e : (2 ^ 32 - 1 : Nat) = 3 * 5 * 17 * 257 * 65537 := by decide
    rwa [e] at this
  refine ⟨q, ?_, ?_⟩
  · rcases hq.dvd_mul.1 hqn with h | h
    · rcases hq.dvd_mul.1 h with h | h
      · rcases hq.dvd_mul.1 h with h | h
        · rcases hq.dvd_mul.1 h with h | h
          · exact .inl ((Nat.prime_dvd_prime_iff_eq hq (by norm_num)).1 h)
          · exact .inr (.inl ((Nat.prime_dvd_prime_iff_eq hq (by norm_num)).1 h))
        · exact .inr (.inr (.inl ((Nat.prime_dvd_prime_iff_eq hq (by norm_num)).1 h)))
      · exact .inr (.inr (.inr (.inl ((Nat.prime_dvd_prime_iff_eq hq (by norm_num)).1 h))))
    · exact .inr (.inr (.inr (.inr ((Nat.prime_dvd_prime_iff_eq hq (by norm_num)).1 h))))
  · obtain ⟨m, rfl⟩ := hqk
    rw [hk, show d * (q * m) = q * (d * m) by rw [Nat.mul_left_comm], Nat.mul_div_cancel_left _ hq.pos]
    exact Nat.dvd_mul_right d m

theorem no_period (k : Nat) (h0 : 0 < k) (hk : k < 2 ^ 32 - 1) : crcBit^[k] 1#32 ≠ 1#32 := by
  intro h
  have hp : Function.IsPeriodicPt crcBit k 1#32 := h
  have hN : Function.IsPeriodicPt crcBit (2 ^ 32 - 1) 1#32 := period
  have hd := hN.minimalPeriod_dvd
  have hle := hp.minimalPeriod_le h0
  obtain ⟨q, hq, hdq⟩ := divisor _ hd (by omega)
  exact period_div q hq (Function.isPeriodicPt_iff_minimalPeriod_dvd.2 hdq)

/-- two wrong bits -/
theorem two_ne (a k b : Nat) (hk : k + 1 < 2 ^ 32 - 1) :
    (List.replicate a false ++ true :: (List.replicate k false ++ true :: List.replicate b false)).foldl feed 0#32 ≠ 0#32 := by
  rw [List.foldl_append, List.foldl_cons, List.foldl_append, List.foldl_cons, feed_none b, feed_none k, feed_none a, iter_zero]
  intro h
  have h1 := crcBit_ne _ (iter_ne _ _ h)
  rw [feed, BitVec.zero_xor, ← Function.iterate_succ_apply] at h1
  exact no_period (k + 1) (by omega) hk (BitVec.xor_eq_zero_iff.1 h1)

/-- two wrong bits given by their positions -/
theorem two_pos (e : List Bool) (i j : Nat) (hij : i < j) (hl : e.length ≤ 2 ^ 32 - 1) (h : ∀ n, e[n]? = some true ↔ (n = i ∨ n = j)) : e.foldl feed 0#32 ≠ 0#32 := by
  have hj : j < e.length := (List.getElem?_eq_some_iff.1 ((h j).2 (.inr rfl))).1
  have he : e = List.replicate i false ++ true :: (List.replicate (j - i - 1) false ++ true :: List.replicate (e.length - j - 1) false) := by
    apply List.ext_getElem
    · simp; omega
    · intro n h1 h2
      have h3 : e[n] = true ↔ (n = i ∨ n = j) := by
        rw [← h n, List.getElem?_eq_getElem h1, Option.some.injEq]
      rw [List.getElem_append]
      split
      · rename_i hn
        simp only [List.length_replicate] at hn
        rw [List.getElem_replicate]
        have : ¬ e[n] = true := by rw [h3]; omega
        simpa using this
      · rename_i hn
        simp only [List.length_replicate] at hn ⊢
        rw [List.getElem_cons]
        split
        · exact h3.2 (by omega)
        · rw [List.getElem_append]
          split
          · rename_i hm
            simp only [List.length_replicate] at hm
            rw [List.getElem_replicate]
            have : ¬ e[n] = true := by rw [h3]; omega
            simpa using this
          · rename_i hm
            simp only [List.length_replicate] at hm ⊢
            rw [List.getElem_cons]
            split
            · exact h3.2 (by omega)
            · rw [List.getElem_replicate]
              have : ¬ e[n] = true := by rw [h3]; omega
              simpa using this
  rw [he]
  exact two_ne _ _ _ (by omega)

end CocotbBus.Crc
