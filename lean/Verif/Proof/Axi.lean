import Verif.Spec.Axi
import Verif.Proof.MemBytes
import Mathlib.Tactic.ByContra

/-! # AXI4: checks and write lanes -/

namespace CocotbBus
open Spec

theorem log2_two_pow (k : Nat) : Nat.log2 (2 ^ k) = k := by
  simp

theorem bitLength_two_pow (k : Nat) : bitLength (2 ^ k) - 1 = k := by
  simp [bitLength]

theorem andPred_iff (s : Int) (h : 0 < s) : andPred s = 0 ↔ ∃ k, s = 2 ^ k := by
  obtain ⟨n, rfl⟩ := Int.eq_ofNat_of_zero_le (Int.le_of_lt h)
  have hn : n ≠ 0 := by intro h0; simp [h0] at h
  have h1 : andPred (n : Int) = n &&& (n - 1) := by
    unfold andPred
    congr 1
    omega
  rw [h1, Nat.and_sub_one_eq_zero_iff_isPowerOfTwo hn]
  constructor
  · rintro ⟨k, hk⟩
    exact ⟨k, by rw [hk]; norm_cast⟩
  · rintro ⟨k, hk⟩
    exact ⟨k, by exact_mod_cast hk⟩

/-! ### Strobes -/

theorem axiStrobes_eq (size : Nat) (be : List (Option Nat)) : ∀ (n : Nat) (acc : List Nat), acc ++ be.map (·.getD (2 ^ size - 1)) ≠ [] →
    axiStrobes size n be acc = .ok (acc ++ (be.take n).map (·.getD (2 ^ size - 1)) ++
      List.replicate (n - be.length) ((acc ++ be.map (·.getD (2 ^ size - 1))).getLast?.getD 0)) := by
  induction be with
  | nil =>
    intro n acc h
    simp only [List.map_nil, List.append_nil] at h
    cases n with
    | zero => simp [axiStrobes]
    | succ n =>
      rw [axiStrobes]
      cases hl : acc.getLast? with
      | none => rw [List.getLast?_eq_none_iff] at hl; exact absurd hl h
      | some l => simp [hl]
  | cons b r ih =>
    intro n acc h
    cases n with
    | zero => simp [axiStrobes]
    | succ n =>
      rw [axiStrobes, ih n _ (by simp)]
      simp

theorem axiStrobes_spec (size n : Nat) (be : List (Option Nat)) (hbe : be ≠ []) :
    ∃ st, axiStrobes size n be [] = .ok st ∧ st.length = n ∧ ∀ i < n, ∀ j < size, (st.getD i 0).testBit j = axiEnabled be i j := by
  rw [axiStrobes_eq size be n [] (by simpa using hbe)]
  refine ⟨_, rfl, by simp; omega, ?_⟩
  intro i hi j hj
  have hf : ∀ b : Option Nat, (b.getD (2 ^ size - 1)).testBit j = match b with
      | none => true
      | some m => m.testBit j := by
    intro b
    cases b with
    | none => simp [Nat.testBit_two_pow_sub_one, hj]
    | some m => rfl
  unfold axiEnabled
  rw [List.nil_append, List.nil_append, List.getD_eq_getElem?_getD]
  by_cases h : i < be.length
  · rw [List.getElem?_append_left (by simp; omega)]
    simp only [List.getElem?_map, List.getElem?_take, hi, if_true]
    rw [List.getElem?_eq_getElem h]
    exact hf _
  · rw [List.getElem?_append_right (by simp; omega)]
    rw [List.getElem?_replicate, if_pos (by simp; omega), List.getElem?_eq_none (by omega)]
    simp only [Option.getD_some, Option.getD_none]
    rw [List.getLast?_map]
    cases hl : be.getLast? with
    | none => rw [List.getLast?_eq_none_iff] at hl; exact absurd hl hbe
    | some l => exact hf l

/-! ### Un-alignment -/

theorem axiUnalign_length (data : List Nat) (sb sh : Nat) : (axiUnalign data sb sh).length = data.length := by simp [axiUnalign]

theorem axiUnalign_testBit (data : List Nat) (sb sh i p : Nat) (hi : i < data.length) (hsh : sh ≤ sb) :
    ((axiUnalign data sb sh).getD i 0).testBit p =
      if p < sh then ((0 :: data).getD i 0).testBit (p + (sb - sh)) else (decide (p < sb) && (data.getD i 0).testBit (p - sh)) := by
  unfold axiUnalign
  rw [List.getD_eq_getElem?_getD, List.getElem?_map, List.getElem?_range hi]
  simp only [Option.map_some, Option.getD_some]
  rw [Nat.testBit_or, Nat.testBit_shiftRight, Nat.testBit_shiftLeft, Nat.testBit_and, Nat.testBit_and, Nat.testBit_shiftLeft,
    Nat.testBit_two_pow_sub_one, Nat.testBit_two_pow_sub_one]
  have e1 : sb - sh + p = p + (sb - sh) := by omega
  have e2 : p + (sb - sh) - (sb - sh) = p := by omega
  rw [e1, e2, List.getD_cons_succ]
  by_cases h : p < sh
  · rw [if_pos h]
    simp [h, Nat.not_le.2 h]
  · rw [if_neg h]
    have h1 : sh ≤ p := by omega
    have h2 : decide (p - sh < sb - sh) = decide (p < sb) := by simp; omega
    simp [h, h1, h2, Bool.and_comm]

theorem maskAndShift_testBit (v bs bn q : Nat) : (maskAndShift v bs bn).testBit q = (decide (bn * bs ≤ q ∧ q < bn * bs + bs) && v.testBit (q - bn * bs)) := by
  unfold maskAndShift
  rw [Nat.testBit_shiftLeft, Nat.testBit_and, Nat.testBit_two_pow_sub_one]
  by_cases h : bn * bs ≤ q
  · have : decide (q - bn * bs < bs) = decide (q < bn * bs + bs) := by simp; omega
    simp [h, this, Bool.and_comm]
  · simp [h]

theorem axiShifted_length (u a size : Nat) (burst : AxiBurst) (data : List Nat) : (axiShifted u a size burst data).length = data.length := by
  unfold axiShifted
  split
  · cases burst <;> simp [axiUnalign_length]
  · rfl

/-! ### One beat -/

theorem div_mod_block (size m a : Nat) : a % (size * m) / size = a / size % m := Nat.mod_mul_right_div_self a size m

/-- a beat whose data are in block `a / size % m` of the bus changes the block of `size` bytes containing `a` only -/
theorem axiStore_block (size m a w st : Nat) (hs : 0 < size) (hm : 0 < m) (mem : Nat → Byte) (b : Nat) :
    axiStore (size * m) a (maskAndShift w (size * 8) (a / size % m), maskAndShift st size (a / size % m)) mem b =
      if alignedAddr size a ≤ b ∧ b < alignedAddr size a + size ∧ st.testBit (b - alignedAddr size a) = true then byteOf w (b - alignedAddr size a) else mem b := by
  have hW : 0 < size * m := Nat.mul_pos hs hm
  set_option linter.unusedVariables false in
  have ha1 := Nat.div_add_mod a (size * m)
  have hb1 := Nat.div_add_mod b (size * m)
  have hblt := Nat.mod_lt b hW
  have hblk : a / size % m < m := Nat.mod_lt _ hm
  have hal : alignedAddr size a = size * m * (a / (size * m)) + a / size % m * size := by
    unfold alignedAddr
    have h1 := Nat.div_add_mod (a / size) m
    rw [Nat.div_div_eq_div_mul] at h1
    conv_lhs => rw [← h1]
    rw [Nat.add_mul]
    congr 1
    rw [Nat.mul_comm, ← Nat.mul_assoc]
  have hmax : a / size % m * size + size ≤ size * m := by
    have : (a / size % m + 1) * size ≤ m * size := Nat.mul_le_mul_right _ hblk
    rw [Nat.add_mul, Nat.one_mul] at this
    rw [Nat.mul_comm size m]; exact this
  unfold axiStore
  simp only [maskAndShift_testBit]
  rw [hal]
  generalize hq : a / (size * m) = q at *
  generalize hblkv : a / size % m = blk at *
  generalize hl : b % (size * m) = l at *
  by_cases hqb : b / (size * m) = q
  · rw [hqb] at hb1
    have e : b - (size * m * q + blk * size) = l - blk * size := by omega
    rw [e]
    by_cases hin : blk * size ≤ l ∧ l < blk * size + size
    · have h1 : size * m * q + blk * size ≤ b ∧ b < size * m * q + blk * size + size := by omega
      by_cases hst : st.testBit (l - blk * size) = true
      · rw [if_pos ⟨hqb, by simp [hin, hst]⟩, if_pos ⟨h1.1, h1.2, hst⟩]
        apply BitVec.eq_of_getLsbD_eq
        intro p hp
        rw [byteOf_getLsbD, byteOf_getLsbD, maskAndShift_testBit]
        have h3 : blk * (size * 8) = 8 * (blk * size) := by rw [← Nat.mul_assoc, Nat.mul_comm]
        rw [h3]
        have h4 : 8 * (blk * size) ≤ 8 * l + p ∧ 8 * l + p < 8 * (blk * size) + size * 8 := by omega
        rw [decide_eq_true h4, Bool.true_and]
        congr 2
        omega
      · rw [if_neg (by simp [hst]), if_neg (by simp [hst])]
    · rw [if_neg (by simp only [Bool.and_eq_true, decide_eq_true_eq]; intro h; exact hin h.2.1), if_neg (by omega)]
  · rw [if_neg (fun h => hqb h.1), if_neg]
    rintro ⟨h1, h2, -⟩
    apply hqb
    rw [Nat.div_eq_iff hW]
    constructor
    · rw [Nat.mul_comm]; omega
    · rw [Nat.mul_comm]; omega

/-! ### The beats of an INCR burst -/

theorem beatAddr_incr_div (size a len n : Nat) (hs : 0 < size) : beatAddr size .incr a len n / size = a / size + n := by
  unfold beatAddr
  cases n with
  | zero => simp
  | succ n =>
    rw [if_neg (Nat.succ_ne_zero n), alignedAddr]
    rw [← Nat.add_mul, Nat.mul_div_cancel _ hs]

theorem alignedAddr_incr (size a len n : Nat) (hs : 0 < size) : alignedAddr size (beatAddr size .incr a len n) = alignedAddr size a + n * size := by
  unfold alignedAddr
  rw [beatAddr_incr_div size a len n hs, Nat.add_mul]

theorem axiStoreAll_incr (size m a len : Nat) (hs : 0 < size) (hm : 0 < m) (l : List (Nat × Nat)) : ∀ (n : Nat) (mem : Nat → Byte) (b : Nat),
    axiStoreAll (size * m) size .incr a len n (axiLanes (size * m) size .incr ((a / size + n) % m) l) mem b =
      if alignedAddr size a + n * size ≤ b ∧ b < alignedAddr size a + (n + l.length) * size ∧
        ((l.getD ((b - alignedAddr size a) / size - n) (0, 0)).2.testBit ((b - alignedAddr size a) % size)) = true
      then byteOf (l.getD ((b - alignedAddr size a) / size - n) (0, 0)).1 ((b - alignedAddr size a) % size) else mem b := by
  induction l with
  | nil =>
    intro n mem b
    rw [axiLanes, axiStoreAll, if_neg (by simp only [List.length_nil, Nat.add_zero]; omega)]
  | cons q r ih =>
    intro n mem b
    obtain ⟨w, st⟩ := q
    have hblk : (a / size + n) % m = beatAddr size .incr a len n / size % m := by rw [beatAddr_incr_div _ _ _ _ hs]
    have hnext : ((a / size + n) % m + 1) % (size * m / size) = (a / size + (n + 1)) % m := by
      rw [Nat.mul_div_cancel_left _ hs, Nat.mod_add_mod, Nat.add_assoc]
    rw [axiLanes, axiStoreAll, if_neg (by simp), hnext, ih (n + 1)]
    have hst := axiStore_block size m (beatAddr size .incr a len n) w st hs hm mem b
    rw [← hblk, alignedAddr_incr _ _ _ _ hs] at hst
    rw [hst]
    clear hst ih
    generalize alignedAddr size a = A
    have e1 : (n + 1) * size = n * size + size := Nat.succ_mul _ _
    have e2 : (n + ((w, st) :: r).length) * size = (n + 1 + r.length) * size := by congr 1; simp; omega
    have e3 : n * size + size ≤ (n + 1 + r.length) * size := by rw [← e1]; exact Nat.mul_le_mul_right _ (by omega)
    rw [e2]
    by_cases h0 : A + n * size ≤ b
    · have hd : ∃ d, b - A = n * size + d ∧ b = A + n * size + d := ⟨b - A - n * size, by omega, by omega⟩
      obtain ⟨d, hd1, hd2⟩ := hd
      have hdiv : (b - A) / size = d / size + n := by rw [hd1, Nat.add_comm, Nat.add_mul_div_right _ _ hs]
      have hmod : (b - A) % size = d % size := by rw [hd1, Nat.add_comm, Nat.add_mul_mod_self_right]
      rw [hdiv, hmod, Nat.add_sub_cancel]
      by_cases h1 : d < size
      · rw [if_neg (by omega), Nat.div_eq_of_lt h1, Nat.mod_eq_of_lt h1]
        simp only [List.getD_cons_zero]
        have e4 : b - (A + n * size) = d := by omega
        rw [e4]
        by_cases h2 : st.testBit d = true
        · rw [if_pos ⟨h0, by omega, h2⟩, if_pos ⟨h0, by omega, h2⟩]
        · rw [if_neg (fun h => h2 h.2.2), if_neg (fun h => h2 h.2.2)]
      · have hpos : 0 < d / size := Nat.div_pos (by omega) hs
        have e5 : d / size + n - (n + 1) = d / size - 1 := by omega
        have e6 : ((w, st) :: r).getD (d / size) (0, 0) = r.getD (d / size - 1) (0, 0) := by
          conv_lhs => rw [show d / size = (d / size - 1) + 1 by omega]
          rfl
        rw [e5, e6]
        by_cases h2 : A + (n + 1) * size ≤ b ∧ b < A + (n + 1 + r.length) * size ∧ (r.getD (d / size - 1) (0, 0)).2.testBit (d % size) = true
        · rw [if_pos h2, if_pos ⟨h0, h2.2.1, h2.2.2⟩]
        · rw [if_neg h2, if_neg (by omega), if_neg]
          intro h3
          exact h2 ⟨by omega, h3.2.1, h3.2.2⟩
    · rw [if_neg (by omega), if_neg (by omega), if_neg (by omega)]

theorem axiLanes_length (W size : Nat) (burst : AxiBurst) (l : List (Nat × Nat)) : ∀ blk, (axiLanes W size burst blk l).length = l.length := by
  induction l with
  | nil => intro _; rfl
  | cons q r ih => intro blk; obtain ⟨w, st⟩ := q; rw [axiLanes]; simp [ih]

theorem maskAndShift_lt (v bs bn m : Nat) (h : bn < m) : maskAndShift v bs bn < 2 ^ (bs * m) := by
  apply Nat.lt_pow_two_of_testBit
  intro i hi
  rw [maskAndShift_testBit]
  have : (bn + 1) * bs ≤ m * bs := Nat.mul_le_mul_right _ h
  rw [Nat.add_mul, Nat.one_mul, Nat.mul_comm m] at this
  have : ¬ (bn * bs ≤ i ∧ i < bn * bs + bs) := by omega
  simp [this]

theorem axiLanes_fits (size m : Nat) (hs : 0 < size) (hm : 0 < m) (burst : AxiBurst) (l : List (Nat × Nat)) : ∀ blk < m,
    ∀ x ∈ axiLanes (size * m) size burst blk l, x.1 < 2 ^ (8 * (size * m)) ∧ x.2 < 2 ^ (size * m) := by
  induction l with
  | nil => intro _ _ x hx; simp [axiLanes] at hx
  | cons q r ih =>
    intro blk hb x hx
    obtain ⟨w, st⟩ := q
    rw [axiLanes] at hx
    rcases List.mem_cons.1 hx with rfl | hx
    · refine ⟨?_, maskAndShift_lt _ _ _ _ hb⟩
      have := maskAndShift_lt w (size * 8) blk m hb
      rwa [show size * 8 * m = 8 * (size * m) by rw [Nat.mul_comm size 8, Nat.mul_assoc]] at this
    · refine ih _ ?_ x hx
      split
      · exact hb
      · rw [Nat.mul_div_cancel_left _ hs]; exact Nat.mod_lt _ hm

theorem getD_zip {α β : Type} (l : List α) (l' : List β) (i : Nat) (a : α) (b : β) (h : i < l.length) (h' : i < l'.length) :
    (l.zip l').getD i (a, b) = (l.getD i a, l'.getD i b) := by
  rw [List.getD_eq_getElem?_getD, List.getElem?_eq_getElem (by rw [List.length_zip]; omega)]
  simp [h, h']

theorem alignedAddr_eq (size a : Nat) : alignedAddr size a + a % size = a := by
  unfold alignedAddr; rw [Nat.mul_comm]; exact Nat.div_add_mod a size

theorem byteOf_unalign (data : List Nat) (size sh i p : Nat) (hi : i < data.length) (hsh : sh ≤ size) (hp : p < size) :
    byteOf ((axiUnalign data (size * 8) (sh * 8)).getD i 0) p =
      if p < sh then byteOf ((0 :: data).getD i 0) (p + (size - sh)) else byteOf (data.getD i 0) (p - sh) := by
  apply BitVec.eq_of_getLsbD_eq
  intro k hk
  rw [byteOf_getLsbD, axiUnalign_testBit _ _ _ _ _ hi (by omega)]
  by_cases h : p < sh
  · rw [if_pos h, if_pos (by omega), byteOf_getLsbD]
    congr 2
    omega
  · rw [if_neg h, if_neg (by omega), byteOf_getLsbD]
    have : 8 * p + k < size * 8 := by omega
    rw [decide_eq_true this, Bool.true_and]
    congr 2
    omega

/-- the memory effect of an INCR write -/
theorem axiWrite_incr (size m a : Nat) (hs : 0 < size) (hm : 0 < m) (data : List Nat) (be : List (Option Nat)) (hbe : be ≠ []) :
    ∃ beats, axiWriteBeats (size * m) size a .incr data be = .ok beats ∧ beats.length = data.length ∧
      (∀ x ∈ beats, x.1 < 2 ^ (8 * (size * m)) ∧ x.2 < 2 ^ (size * m)) ∧
      ∀ mem b, axiStoreAll (size * m) size .incr a data.length 0 beats mem b =
        if a ≤ b ∧ b < a + data.length * size - a % size ∧ axiEnabled be ((b - a) / size) ((b - a) % size) = true
        then byteOf (data.getD ((b - a) / size) 0) ((b - a) % size) else mem b := by
  obtain ⟨st, hst, hstl, hstb⟩ := axiStrobes_spec size data.length be hbe
  refine ⟨_, by rw [axiWriteBeats, hst]; rfl, ?_, ?_, ?_⟩
  · rw [axiLanes_length, List.length_zip, axiShifted_length, axiShifted_length, hstl, Nat.min_self]
  · apply axiLanes_fits size m hs hm
    rw [div_mod_block]
    exact Nat.mod_lt _ hm
  · intro mem b
    have h := axiStoreAll_incr size m a data.length hs hm ((axiShifted 8 a size .incr data).zip (axiShifted 1 a size .incr st)) 0 mem b
    rw [Nat.add_zero, ← div_mod_block, Nat.zero_mul, Nat.add_zero, Nat.zero_add, Nat.sub_zero, List.length_zip, axiShifted_length, axiShifted_length, hstl, Nat.min_self] at h
    rw [h]
    clear h
    have hal := alignedAddr_eq size a
    have hmodlt := Nat.mod_lt a hs
    generalize alignedAddr size a = A at *
    have hlen : a + data.length * size - a % size = A + data.length * size := by omega
    rw [hlen]
    by_cases hb1 : A ≤ b ∧ b < A + data.length * size
    · have hi : (b - A) / size < data.length := by
        rw [Nat.div_lt_iff_lt_mul hs]; omega
      have hp : (b - A) % size < size := Nat.mod_lt _ hs
      have hdm := Nat.div_add_mod (b - A) size
      rw [getD_zip _ _ _ _ _ (by rw [axiShifted_length]; exact hi) (by rw [axiShifted_length, hstl]; exact hi)]
      simp only
      generalize (b - A) / size = i at *
      generalize (b - A) % size = p at *
      by_cases hz : a % size = 0
      · unfold axiShifted
        simp only [hz, ne_eq, not_true_eq_false, if_false]
        have : a = A := by omega
        subst this
        have e1 : (b - a) / size = i := by rw [← hdm, Nat.mul_add_div hs, Nat.div_eq_of_lt hp, Nat.add_zero]
        have e2 : (b - a) % size = p := by rw [← hdm, Nat.mul_add_mod, Nat.mod_eq_of_lt hp]
        rw [e1, e2, hstb i hi p hp]
      · unfold axiShifted
        rw [if_pos hz, if_pos hz]
        simp only [Nat.mul_one]
        rw [byteOf_unalign _ _ _ _ _ hi (by omega) hp, axiUnalign_testBit _ _ _ _ _ (by rw [hstl]; exact hi) (by omega)]
        by_cases hlo : p < a % size
        · rw [if_pos hlo, if_pos hlo]
          cases i with
          | zero =>
            have : b < a := by rw [Nat.mul_zero, Nat.zero_add] at hdm; omega
            rw [if_neg (by simp), if_neg (by omega)]
          | succ i =>
            rw [Nat.mul_succ] at hdm
            have hba : b - a = size * i + (p + (size - a % size)) := by omega
            have e1 : (b - a) / size = i := by rw [hba, Nat.mul_add_div hs, Nat.div_eq_of_lt (by omega), Nat.add_zero]
            have e2 : (b - a) % size = p + (size - a % size) := by rw [hba, Nat.mul_add_mod, Nat.mod_eq_of_lt (by omega)]
            rw [e1, e2, List.getD_cons_succ, List.getD_cons_succ, hstb i (by omega) _ (by omega)]
            have : a ≤ b := by
              have : size * i + size ≤ b - A := by omega
              omega
            simp only [hb1, this, true_and]
        · rw [if_neg hlo, if_neg hlo]
          have hba : b - a = size * i + (p - a % size) := by omega
          have e1 : (b - a) / size = i := by rw [hba, Nat.mul_add_div hs, Nat.div_eq_of_lt (by omega), Nat.add_zero]
          have e2 : (b - a) % size = p - a % size := by rw [hba, Nat.mul_add_mod, Nat.mod_eq_of_lt (by omega)]
          rw [e1, e2, hstb i (by omega) _ (by omega), decide_eq_true hp, Bool.true_and]
          have : a ≤ b := by omega
          simp only [hb1, this, true_and]
    · rw [if_neg (by omega), if_neg (by omega)]

/-- one beat of a FIXED write -/
theorem axiLanes_fixed_get (W size blk : Nat) (l : List (Nat × Nat)) : ∀ n : Nat, (axiLanes W size .fixed blk l)[n]? =
    (l[n]?).map (fun q => (maskAndShift q.1 (size * 8) blk, maskAndShift q.2 size blk)) := by
  induction l with
  | nil => intro n; rfl
  | cons q r ih =>
    intro n
    obtain ⟨w, st⟩ := q
    rw [axiLanes, if_pos rfl]
    cases n with
    | zero => rfl
    | succ n => simpa using ih n

theorem axiWrite_fixed (size m a : Nat) (hs : 0 < size) (hm : 0 < m) (data : List Nat) (be : List (Option Nat)) (hbe : be ≠ []) :
    ∃ beats, axiWriteBeats (size * m) size a .fixed data be = .ok beats ∧ beats.length = data.length ∧
      (∀ x ∈ beats, x.1 < 2 ^ (8 * (size * m)) ∧ x.2 < 2 ^ (size * m)) ∧
      ∀ i beat, beats[i]? = some beat → ∀ mem b, axiStore (size * m) a beat mem b =
        if a ≤ b ∧ b < a + size - a % size ∧ axiEnabled be i (b - a) = true
        then byteOf (data.getD i 0) (b - a) else mem b := by
  obtain ⟨st, hst, hstl, hstb⟩ := axiStrobes_spec size data.length be hbe
  refine ⟨_, by rw [axiWriteBeats, hst]; rfl, ?_, ?_, ?_⟩
  · rw [axiLanes_length, List.length_zip, axiShifted_length, axiShifted_length, hstl, Nat.min_self]
  · apply axiLanes_fits size m hs hm
    rw [div_mod_block]
    exact Nat.mod_lt _ hm
  · intro i beat hbeat mem b
    rw [axiLanes_fixed_get] at hbeat
    have hi : i < data.length := by
      by_contra hge
      rw [List.getElem?_eq_none (by rw [List.length_zip, axiShifted_length, axiShifted_length, hstl]; omega)] at hbeat
      cases hbeat
    have hz := getD_zip (axiShifted 8 a size .fixed data) (axiShifted 1 a size .fixed st) i 0 0 (by rw [axiShifted_length]; exact hi) (by rw [axiShifted_length, hstl]; exact hi)
    rw [List.getD_eq_getElem?_getD] at hz
    cases hg : ((axiShifted 8 a size .fixed data).zip (axiShifted 1 a size .fixed st))[i]? with
    | none => rw [hg] at hbeat; cases hbeat
    | some q =>
      rw [hg] at hbeat hz
      simp only [Option.getD_some] at hz
      simp only [Option.map_some, Option.some.injEq] at hbeat
      subst hbeat hz
      simp only
      rw [div_mod_block, axiStore_block size m a _ _ hs hm]
      have hal := alignedAddr_eq size a
      have hmodlt := Nat.mod_lt a hs
      generalize alignedAddr size a = A at *
      by_cases hb1 : A ≤ b ∧ b < A + size
      · by_cases hzz : a % size = 0
        · unfold axiShifted
          simp only [hzz, ne_eq, not_true_eq_false, if_false]
          have : a = A := by omega
          subst this
          rw [hstb i hi _ (by omega), Nat.sub_zero]
        · unfold axiShifted
          rw [if_pos hzz, if_pos hzz]
          simp only [List.getD_eq_getElem?_getD, List.getElem?_map, List.getElem?_eq_getElem hi,
            List.getElem?_eq_getElem (show i < st.length by omega), Option.map_some, Option.getD_some, Nat.mul_one]
          have hsti := hstb i hi
          simp only [List.getD_eq_getElem?_getD, List.getElem?_eq_getElem (show i < st.length by omega), Option.getD_some] at hsti
          rw [Nat.testBit_and, Nat.testBit_shiftLeft, Nat.testBit_two_pow_sub_one]
          by_cases hlo : b < a
          · rw [if_neg, if_neg (by omega)]
            rintro ⟨-, -, h⟩
            simp at h
            omega
          · have e1 : b - A - a % size = b - a := by omega
            have e2 : a % size ≤ b - A := by omega
            have e3 : b - A < size := by omega
            rw [e1, hsti _ (by omega)]
            simp only [e2, e3, decide_true, Bool.true_and, Bool.and_true]
            have e4 : b < A + size ↔ b < a + size - a % size := by omega
            by_cases hen : axiEnabled be i (b - a) = true
            · rw [if_pos ⟨hb1.1, hb1.2, hen⟩, if_pos ⟨by omega, by omega, hen⟩]
              apply BitVec.eq_of_getLsbD_eq
              intro k hk
              rw [byteOf_getLsbD, byteOf_getLsbD, Nat.testBit_and, Nat.testBit_shiftLeft, Nat.testBit_two_pow_sub_one]
              have g1 : a % size * 8 ≤ 8 * (b - A) + k := by omega
              have g2 : 8 * (b - A) + k < size * 8 := by omega
              have g3 : 8 * (b - A) + k - a % size * 8 = 8 * (b - a) + k := by omega
              simp [g1, g2, g3]
            · rw [if_neg (fun h => hen h.2.2), if_neg (fun h => hen h.2.2)]
      · rw [if_neg (by omega), if_neg (by omega)]

/-! ### WRAP bursts -/

/-- the block of the code is that of the running address; -/
theorem axiLanes_get (size m : Nat) (hs : 0 < size) (burst : AxiBurst) (hb : burst ≠ .fixed) (l : List (Nat × Nat)) : ∀ x n : Nat,
    (axiLanes (size * m) size burst (x % m) l)[n]? = (l[n]?).map (fun q => (maskAndShift q.1 (size * 8) ((x + n) % m), maskAndShift q.2 size ((x + n) % m))) := by
  induction l with
  | nil => intro x n; rfl
  | cons q r ih =>
    intro x n
    obtain ⟨w, st⟩ := q
    rw [axiLanes, if_neg hb, Nat.mul_div_cancel_left _ hs, Nat.mod_add_mod]
    cases n with
    | zero => simp
    | succ n =>
      simp only [List.getElem?_cons_succ]
      rw [ih (x + 1) n, show x + 1 + n = x + (n + 1) by omega]

/-- ... which has the same lanes as the wrapped one if the burst covers whole bus words -/
theorem wrap_block (size m a len n : Nat) (hs : 0 < size) (hlen : m ∣ len) (hpos : 0 < len) (ha : a % size = 0) :
    beatAddr size .wrap a len n / size % m = (a / size + n) % m ∧ beatAddr size .wrap a len n % size = 0 := by
  obtain ⟨k, rfl⟩ := hlen
  obtain ⟨c, rfl⟩ : ∃ c, a = size * c := ⟨a / size, by have := Nat.div_add_mod a size; omega⟩
  unfold beatAddr
  simp only
  have hL : 0 < size * (m * k) := Nat.mul_pos hs hpos
  have h1 : size * c / (size * (m * k)) = c / (m * k) := Nat.mul_div_mul_left _ _ hs
  rw [h1, Nat.mul_div_cancel_left _ hs]
  have h2 : c / (m * k) * (size * (m * k)) = size * (c / (m * k) * (m * k)) := by
    rw [Nat.mul_left_comm]
  have h3 := Nat.div_add_mod c (m * k)
  have h4 : size * c - c / (m * k) * (size * (m * k)) + n * size = size * (c % (m * k) + n) := by
    rw [h2, ← Nat.mul_sub, Nat.mul_add, Nat.mul_comm n]
    congr 2
    rw [Nat.mul_comm (c / (m * k))]
    omega
  rw [h4, h2, Nat.mul_mod_mul_left, ← Nat.mul_add, Nat.mul_mod_right, Nat.mul_div_cancel_left _ hs]
  refine ⟨?_, rfl⟩
  rw [Nat.mul_comm (c / (m * k)), Nat.mul_assoc, Nat.mul_add_mod, Nat.mod_mul_right_mod]
  conv_rhs => rw [← h3, Nat.mul_assoc, Nat.add_assoc, Nat.mul_add_mod]

/-- ... or if it starts at the boundary, so that it does not wrap -/
theorem wrap_straight (size m a len n : Nat) (hs : 0 < size) (h0 : a % (size * len) = 0) (hn : n < len) :
    beatAddr size .wrap a len n / size % m = (a / size + n) % m ∧ beatAddr size .wrap a len n % size = 0 := by
  have h1 : a / (size * len) * (size * len) = a := by
    have := Nat.div_add_mod a (size * len)
    rw [h0, Nat.add_zero, Nat.mul_comm] at this
    exact this
  have h2 : beatAddr size .wrap a len n = a + n * size := by
    unfold beatAddr
    simp only
    rw [h1, Nat.sub_self, Nat.zero_add, Nat.mod_eq_of_lt]
    rw [Nat.mul_comm]
    exact Nat.mul_lt_mul_of_pos_left hn hs
  have h3 : size ∣ a := Nat.dvd_trans (Nat.dvd_mul_right size len) (Nat.dvd_of_mod_eq_zero h0)
  rw [h2, Nat.add_mul_div_right _ _ hs]
  exact ⟨rfl, Nat.mod_eq_zero_of_dvd (Nat.dvd_add h3 (Nat.dvd_mul_left _ _))⟩

theorem wrap_lanes (size m a len n : Nat) (hs : 0 < size) (hn : n < len) (ha : a % size = 0) (h : m ∣ len ∨ a % (size * len) = 0) :
    beatAddr size .wrap a len n / size % m = (a / size + n) % m ∧ beatAddr size .wrap a len n % size = 0 := by
  rcases h with h | h
  · exact wrap_block size m a len n hs h (by omega) ha
  · exact wrap_straight size m a len n hs h hn

/-- Otherwise, with fewer beats than the bus has blocks, the first beat behind the wrap is not on its lanes. -/
theorem wrap_wrong (size m a len : Nat) (hs : 0 < size) (hpos : 0 < len) (hlen : len < m) (ha : a % size = 0) (h0 : a % (size * len) ≠ 0) :
    ∃ n, n < len ∧ beatAddr size .wrap a len n / size % m ≠ (a / size + n) % m ∧ beatAddr size .wrap a len n % size = 0 := by
  obtain ⟨c, rfl⟩ : ∃ c, a = size * c := ⟨a / size, by have := Nat.div_add_mod a size; omega⟩
  rw [Nat.mul_mod_mul_left] at h0
  have hc : 0 < c % len := by
    rcases Nat.eq_zero_or_pos (c % len) with h | h
    · rw [h] at h0; simp at h0
    · exact h
  have hlt := Nat.mod_lt c hpos
  refine ⟨len - c % len, by omega, ?_⟩
  have h1 : beatAddr size .wrap (size * c) len (len - c % len) = size * (c / len * len) := by
    unfold beatAddr
    simp only
    rw [Nat.mul_div_mul_left _ _ hs]
    have h2 : c / len * (size * len) = size * (c / len * len) := by rw [Nat.mul_left_comm]
    have h3 := Nat.div_add_mod c len
    rw [Nat.mul_comm len] at h3
    rw [h2, ← Nat.mul_sub, Nat.mul_comm (len - c % len), ← Nat.mul_add, Nat.mul_mod_mul_left]
    rw [show c - c / len * len + (len - c % len) = len by omega, Nat.mod_self]
    rfl
  rw [h1, Nat.mul_div_cancel_left _ hs, Nat.mul_mod_right, Nat.mul_div_cancel_left _ hs]
  refine ⟨?_, rfl⟩
  have h3 := Nat.div_add_mod c len
  rw [Nat.mul_comm len] at h3
  rw [show c + (len - c % len) = c / len * len + len by omega]
  intro h
  have h4 : (c / len * len + len - c / len * len) % m = 0 := Nat.sub_mod_eq_zero_of_mod_eq h.symm
  rw [Nat.add_sub_cancel_left, Nat.mod_eq_of_lt hlen] at h4
  omega

theorem axiWrite_wrap (size m a : Nat) (hs : 0 < size) (hm : 0 < m) (data : List Nat) (be : List (Option Nat)) (hbe : be ≠ [])
    (hal : a % size = 0) (hfull : m ∣ data.length ∨ a % (size * data.length) = 0) :
    ∃ beats, axiWriteBeats (size * m) size a .wrap data be = .ok beats ∧ beats.length = data.length ∧
      (∀ x ∈ beats, x.1 < 2 ^ (8 * (size * m)) ∧ x.2 < 2 ^ (size * m)) ∧
      ∀ i beat, beats[i]? = some beat → ∀ mem b, axiStore (size * m) (beatAddr size .wrap a data.length i) beat mem b =
        if beatAddr size .wrap a data.length i ≤ b ∧ b < beatAddr size .wrap a data.length i + size ∧
            axiEnabled be i (b - beatAddr size .wrap a data.length i) = true
        then byteOf (data.getD i 0) (b - beatAddr size .wrap a data.length i) else mem b := by
  obtain ⟨st, hst, hstl, hstb⟩ := axiStrobes_spec size data.length be hbe
  refine ⟨_, by rw [axiWriteBeats, hst]; rfl, ?_, ?_, ?_⟩
  · rw [axiLanes_length, List.length_zip, axiShifted_length, axiShifted_length, hstl, Nat.min_self]
  · apply axiLanes_fits size m hs hm
    rw [div_mod_block]
    exact Nat.mod_lt _ hm
  · intro i beat hbeat mem b
    unfold axiShifted at hbeat
    simp only [hal, ne_eq, not_true_eq_false, if_false] at hbeat
    rw [div_mod_block, axiLanes_get size m hs .wrap (by decide)] at hbeat
    have hi : i < data.length := by
      by_contra hge
      rw [List.getElem?_eq_none (by rw [List.length_zip]; omega)] at hbeat
      cases hbeat
    have hz := getD_zip data st i 0 0 hi (by omega)
    rw [List.getD_eq_getElem?_getD] at hz
    cases hg : (data.zip st)[i]? with
    | none => rw [hg] at hbeat; cases hbeat
    | some q =>
      rw [hg] at hbeat hz
      simp only [Option.getD_some] at hz
      simp only [Option.map_some, Option.some.injEq] at hbeat
      subst hbeat hz
      simp only
      obtain ⟨h1, h2⟩ := wrap_lanes size m a data.length i hs hi hal hfull
      rw [← h1, axiStore_block size m _ _ _ hs hm]
      have hal := alignedAddr_eq size (beatAddr size .wrap a data.length i)
      rw [h2, Nat.add_zero] at hal
      rw [hal]
      generalize beatAddr size .wrap a data.length i = A at *
      by_cases hb : A ≤ b ∧ b < A + size
      · rw [hstb i hi _ (by omega)]
      · rw [if_neg (by omega), if_neg (by omega)]

/-- a beat on the wrong block of a bus word changes none of the bytes it addresses -/
theorem axiWrite_wrap_short (size m a : Nat) (hs : 0 < size) (data : List Nat) (be : List (Option Nat)) (hbe : be ≠ []) (hpos : 0 < data.length)
    (hal : a % size = 0) (hshort : data.length < m) (h0 : a % (size * data.length) ≠ 0) :
    ∃ beats i beat, axiWriteBeats (size * m) size a .wrap data be = .ok beats ∧ beats[i]? = some beat ∧
      ∀ mem b, InBeat size .wrap a data.length i b → axiStore (size * m) (beatAddr size .wrap a data.length i) beat mem b = mem b := by
  obtain ⟨st, hst, hstl, -⟩ := axiStrobes_spec size data.length be hbe
  obtain ⟨n, hn, hne, hz⟩ := wrap_wrong size m a data.length hs hpos hshort hal h0
  obtain ⟨q, hq⟩ : ∃ q, (data.zip st)[n]? = some q := ⟨_, List.getElem?_eq_getElem (by rw [List.length_zip]; omega)⟩
  refine ⟨_, n, (maskAndShift q.1 (size * 8) ((a / size + n) % m), maskAndShift q.2 size ((a / size + n) % m)), by rw [axiWriteBeats, hst]; rfl, ?_, ?_⟩
  · unfold axiShifted
    simp only [hal, ne_eq, not_true_eq_false, if_false]
    rw [div_mod_block, axiLanes_get size m hs .wrap (by decide), hq]
    rfl
  · intro mem b hb
    have hali := alignedAddr_eq size (beatAddr size .wrap a data.length n)
    rw [hz, Nat.add_zero] at hali
    unfold InBeat at hb
    rw [hali] at hb
    unfold axiStore
    apply if_neg
    rintro ⟨-, h⟩
    simp only [maskAndShift, Nat.testBit_shiftLeft, Nat.testBit_and, Nat.testBit_two_pow_sub_one, Bool.and_eq_true, decide_eq_true_eq] at h
    generalize beatAddr size .wrap a data.length n = A at *
    have hb' : b / size = A / size := by
      obtain ⟨c, rfl⟩ : ∃ c, A = size * c := ⟨A / size, by have := Nat.div_add_mod A size; omega⟩
      rw [Nat.mul_div_cancel_left _ hs]
      apply Nat.div_eq_of_lt_le
      · rw [Nat.mul_comm]; exact hb.1
      · rw [Nat.add_mul, Nat.one_mul, Nat.mul_comm]; exact hb.2
    have e : b % (size * m) / size = A / size % m := by rw [Nat.mod_mul_right_div_self, hb']
    apply hne
    rw [← e]
    generalize (a / size + n) % m = K at *
    apply Nat.div_eq_of_lt_le
    · exact h.1
    · rw [Nat.add_mul, Nat.one_mul]; omega

end CocotbBus
