import Verif.Model.Compat1
import Verif.Model.AvalonST
import Verif.Proof.Compat

/-! # C95: the same bits and bytes under cocotb 1.x and 2.x -/

namespace CocotbBus

theorem bvAdjust_exact (n : Nat) (e : Bool) (s : LogicArray) (h : s.length = n) : bvAdjust n e s = s := by
  unfold bvAdjust
  rw [if_pos (by omega), h, Nat.sub_self]
  cases e <;> simp

theorem binDigits_pad (v n : Nat) (hn : 0 < n) (h : v < 2 ^ n) :
    (binDigits v).length ≤ n ∧ List.replicate (n - (binDigits v).length) Logic.zero ++ binDigits v = natToBits n v := by
  unfold binDigits
  by_cases h0 : v = 0
  · subst h0
    rw [if_pos rfl, natToBits_zero]
    refine ⟨hn, ?_⟩
    show List.replicate (n - 1) Logic.zero ++ [.zero] = _
    rw [← List.replicate_succ', show n - 1 + 1 = n by omega]
  · rw [if_neg h0, natToBits_length]
    have hl : Nat.log2 v < n := (Nat.log2_lt h0).mpr h
    refine ⟨hl, ?_⟩
    have hv : v < 2 ^ (Nat.log2 v + 1) := Nat.lt_log2_self
    have := natToBits_split (Nat.log2 v + 1) (n - (Nat.log2 v + 1)) v
    rw [show n - (Nat.log2 v + 1) + (Nat.log2 v + 1) = n by omega, Nat.div_eq_of_lt hv, natToBits_zero] at this
    exact this.symm

theorem natToBytesLE_snoc (k : Nat) : ∀ n, natToBytesLE (k + 1) n = natToBytesLE k n ++ [BitVec.ofNat 8 (n / 256 ^ k)] := by
  induction k with
  | zero => intro n; simp [natToBytesLE]
  | succ k ih =>
    intro n
    rw [natToBytesLE, ih, natToBytesLE, List.cons_append, Nat.div_div_eq_div_mul, Nat.pow_succ']

theorem natToBytesLE_lowPart (k : Nat) : ∀ a n, natToBytesLE k (a * 256 ^ k + n) = natToBytesLE k n := by
  induction k with
  | zero => intro _ _; rfl
  | succ k ih =>
    intro a n
    rw [natToBytesLE, natToBytesLE]
    have h1 : (a * 256 ^ (k + 1) + n) / 256 = a * 256 ^ k + n / 256 := by
      rw [Nat.pow_succ, ← Nat.mul_assoc, Nat.add_comm, Nat.add_mul_div_right _ _ (by decide), Nat.add_comm]
    rw [h1, ih]
    congr 1
    apply BitVec.eq_of_toNat_eq
    simp only [BitVec.toNat_ofNat]
    rw [show (2 : Nat) ^ 8 = 256 by rfl, Nat.pow_succ, ← Nat.mul_assoc, Nat.add_comm, Nat.add_mul_mod_self_right]

theorem bytesMSB_eq (k : Nat) : ∀ v : LogicArray, v.length = 8 * k → bytesMSB k v = (natToBytesLE k (bitsToNat v)).reverse := by
  induction k with
  | zero => intro v _; rfl
  | succ k ih =>
    intro v hv
    have hsplit : bitsToNat v = bitsToNat (v.take 8) * 256 ^ k + bitsToNat (v.drop 8) := by
      conv => lhs; rw [← List.take_append_drop 8 v]
      rw [bitsToNat_append, List.length_drop, hv, show 8 * (k + 1) - 8 = 8 * k by omega, Nat.pow_mul]
    have hlow : bitsToNat (v.drop 8) < 256 ^ k := by
      have := bitsToNat_lt (v.drop 8)
      rwa [List.length_drop, hv, show 8 * (k + 1) - 8 = 8 * k by omega, Nat.pow_mul] at this
    rw [bytesMSB, natToBytesLE_snoc, List.reverse_append, hsplit, natToBytesLE_lowPart, ← ih _ (by rw [List.length_drop]; omega)]
    simp only [List.reverse_singleton, List.singleton_append]
    rw [Nat.mul_comm, Nat.mul_add_div (Nat.pow_pos (by decide)), Nat.div_eq_of_lt hlow, Nat.add_zero]

/-- C95, proved part, values for signals: the same bits on the wire for byte strings that fit (and any bus that is not one bit wide), for
bit strings of the right length, and for numbers that fit when not big endian (which is how the package converts numbers). -/
theorem C95_create_partial (n : Nat) (hn : 0 < n) :
    (∀ (b : Bytes) (e : Bool), n ≠ 1 → 8 * b.length ≤ n →
      createBinaryBytes b n e = .ok (.array (createBinary1Bytes b n e).bits)) ∧
    (∀ (s : LogicArray) (e : Bool), s.length = n → (createBinaryStr s n).map BinVal.bits = .ok (createBinary1Str s n e).bits) ∧
    (∀ v : Nat, v < 2 ^ n → (createBinaryInt v n).map BinVal.bits = .ok (createBinary1Int v n false).bits) := by
  refine ⟨?_, ?_, ?_⟩
  · intro b e h1 hb
    unfold createBinaryBytes createBinary1Bytes bvAdjust
    cases e with
    | true =>
      simp only [if_true, joinBytes_length]
      rw [if_neg h1, if_pos hb, if_pos (by simp; omega)]
    | false =>
      simp only [Bool.false_eq_true, if_false, joinBytes_length, List.length_reverse]
      rw [if_neg h1, if_pos hb, if_pos (by simp; omega)]
  · intro s e hs
    unfold createBinaryStr createBinary1Str
    rw [bvAdjust_exact n e s hs]
    by_cases h1 : n = 1
    · rw [if_pos h1]
      rw [h1] at hs
      match s, hs with
      | [l], _ => rfl
    · rw [if_neg h1, if_pos hs]; rfl
  · intro v hv
    obtain ⟨h1, h2⟩ := binDigits_pad v n hn hv
    unfold createBinaryInt createBinary1Int bvAdjust
    rw [if_pos h1]
    simp only [Bool.false_eq_true, if_false]
    rw [h2]
    by_cases hw : n = 1
    · subst hw
      rw [if_pos rfl]
      have : v = 0 ∨ v = 1 := by omega
      rcases this with rfl | rfl <;> rfl
    · rw [if_neg hw, if_pos hv]; rfl

/-- C95, values read from signals of more than one bit: the same bytes in both byte orders, or the same exception. -/
theorem C95_convert_partial (v : BinaryValue) (e : Bool) :
    convertBinaryToBytes (.array v.bits) e = convertBinary1ToBytes v e := by
  unfold convertBinary1ToBytes createBinary1Str BinaryValue.buff
  rw [bvAdjust_exact _ _ _ rfl]
  simp only [convertBinaryToBytes, toUnsigned]
  by_cases hr : isResolvable v.bits = true
  · simp only [hr, if_true]
    rw [bytesMSB_eq _ _ (by simp; omega), bitsToNat_append, bitsToNat_replicate_zero, Nat.zero_mul, Nat.zero_add]
    cases e <;> simp
  · simp only [hr, if_false, Bool.false_eq_true]

/-- C95, slices: the same bits or the same exception, for all indices. -/
theorem C95_slice (v : BinaryValue) (start stop : Nat) : binarySlice v.bits start stop = binarySlice1 v start stop := by
  unfold binarySlice binarySlice1
  by_cases h1 : stop < v.bits.length
  · by_cases h2 : start ≤ stop
    · rw [if_pos ⟨by omega, h1⟩, if_pos h2, if_neg (by omega), if_neg (by omega), List.drop_take]
    · by_cases h3 : start < v.bits.length
      · rw [if_pos ⟨h3, h1⟩, if_neg h2, if_neg (by omega), if_pos (by omega)]
      · rw [if_neg (fun h => h3 h.1), if_neg (by omega), if_pos (by omega)]
  · rw [if_neg (fun h => h1 h.2), if_pos (by omega)]

/-- C95 is false of the code outside these cases. A byte string or number that does not fit is an exception under 2.x, and its upper bits are
dropped under 1.x; a one-bit value can be converted to bytes under 1.x only. -/
theorem C95_violated (e : Bool) :
    (createBinaryBytes [0x12, 0x34] 8 e = .error .valueError ∧ (createBinary1Bytes [0x12, 0x34] 8 e).bits = byteBits (if e then 0x34 else 0x12)) ∧
    (createBinaryInt 0x1234 8 = .error .overflowError ∧ (createBinary1Int 0x1234 8 e).bits = byteBits 0x34) ∧
    (convertBinaryToBytes (.logic .one) e = .error .attributeError ∧ convertBinary1ToBytes ⟨[.one], true⟩ e = .ok [1]) := by
  cases e <;> refine ⟨⟨?_, ?_⟩, ⟨?_, ?_⟩, ?_, ?_⟩ <;> decide +kernel

example : createBinaryBytes [0x12, 0x34] 24 true = .ok (.array (createBinary1Bytes [0x12, 0x34] 24 true).bits) ∧
    (createBinaryInt 5 12).map BinVal.bits = .ok (createBinary1Int 5 12 false).bits := by
  refine ⟨?_, ?_⟩ <;> decide +kernel
example : convertBinary1ToBytes ⟨natToBits 20 0x12345, true⟩ false = .ok [0x45, 0x23, 0x01] ∧
    convertBinary1ToBytes ⟨[.x, .one], true⟩ false = .error .valueError := by
  refine ⟨?_, ?_⟩ <;> decide +kernel

end CocotbBus
