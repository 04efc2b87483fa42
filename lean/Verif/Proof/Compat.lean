import Verif.Model.Compat
import Verif.Spec.Bytes

/-! Lemmas about `Verif.Model.Compat`. -/

namespace CocotbBus

@[simp] theorem isResolvable_nil : isResolvable [] = true := rfl

@[simp] theorem isResolvable_append (a b : LogicArray) :
    isResolvable (a ++ b) = (isResolvable a && isResolvable b) := by
  simp [isResolvable]

@[simp] theorem isResolvable_cons (a : Logic) (b : LogicArray) :
    isResolvable (a :: b) = (a.isResolvable && isResolvable b) := by
  simp [isResolvable]

@[simp] theorem Logic.isResolvable_ofBool (b : Bool) : (Logic.ofBool b).isResolvable = true := by
  cases b <;> rfl

theorem bitsToNat_foldl (acc : Nat) (v : LogicArray) :
    v.foldl (fun acc b => acc * 2 + b.toNat) acc = acc * 2 ^ v.length + bitsToNat v := by
  induction v generalizing acc with
  | nil => simp [bitsToNat]
  | cons b v ih =>
    unfold bitsToNat
    rw [List.foldl_cons, List.foldl_cons, ih, ih (0 * 2 + b.toNat), List.length_cons, Nat.pow_succ,
      Nat.add_mul, Nat.mul_assoc, Nat.mul_comm 2, Nat.zero_mul, Nat.zero_add, Nat.add_assoc]

@[simp] theorem bitsToNat_nil : bitsToNat [] = 0 := rfl

@[simp] theorem bitsToNat_append (a b : LogicArray) :
    bitsToNat (a ++ b) = bitsToNat a * 2 ^ b.length + bitsToNat b := by
  rw [bitsToNat, List.foldl_append, bitsToNat_foldl]; rfl

theorem bitsToNat_singleton (b : Logic) : bitsToNat [b] = b.toNat := by
  simp [bitsToNat]

theorem Logic.toNat_le_one (b : Logic) : b.toNat ≤ 1 := by cases b <;> simp [Logic.toNat]

theorem bitsToNat_lt (v : LogicArray) : bitsToNat v < 2 ^ v.length := by
  induction v with
  | nil => simp
  | cons b v ih =>
    have : b :: v = [b] ++ v := rfl
    rw [this, bitsToNat_append, bitsToNat_singleton, List.length_append]
    have h1 := Logic.toNat_le_one b
    have : b.toNat * 2 ^ v.length ≤ 1 * 2 ^ v.length := Nat.mul_le_mul_right _ h1
    simp only [List.length_singleton, Nat.pow_add]
    omega

@[simp] theorem natToBits_length (w n : Nat) : (natToBits w n).length = w := by
  induction w generalizing n with
  | zero => rfl
  | succ w ih => simp [natToBits, ih]

@[simp] theorem isResolvable_natToBits (w n : Nat) : isResolvable (natToBits w n) = true := by
  induction w generalizing n with
  | zero => rfl
  | succ w ih => simp [natToBits, ih]

theorem natToBits_split (w u : Nat) : ∀ n, natToBits (u + w) n = natToBits u (n / 2 ^ w) ++ natToBits w n := by
  induction w with
  | zero => intro n; simp [natToBits]
  | succ w ih =>
    intro n
    rw [← Nat.add_assoc, natToBits, ih, natToBits, List.append_assoc, Nat.div_div_eq_div_mul, Nat.pow_succ']

theorem natToBits_mod (w : Nat) : ∀ n, natToBits w (n % 2 ^ w) = natToBits w n := by
  induction w with
  | zero => intro n; rfl
  | succ w ih =>
    intro n
    rw [natToBits, natToBits, ← ih (n / 2), ← ih (n % 2 ^ (w + 1) / 2)]
    have h1 : n % 2 ^ (w + 1) / 2 = n / 2 % 2 ^ w := by
      rw [Nat.pow_succ', Nat.mod_mul_right_div_self]
    have h2 : n % 2 ^ (w + 1) % 2 = n % 2 := by
      rw [Nat.pow_succ', Nat.mod_mul_right_mod]
    rw [h1, h2, Nat.mod_mod]

theorem natToBits_zero (w : Nat) : natToBits w 0 = List.replicate w .zero := by
  induction w with
  | zero => rfl
  | succ w ih => rw [List.replicate_succ', ← ih]; rfl

theorem bitsToNat_natToBits (w n : Nat) : bitsToNat (natToBits w n) = n % 2 ^ w := by
  induction w generalizing n with
  | zero => simp [natToBits, Nat.mod_one]
  | succ w ih =>
    have hb : (Logic.ofBool (n % 2 == 1)).toNat = n % 2 := by
      rcases Nat.mod_two_eq_zero_or_one n with h | h <;> simp [h, Logic.ofBool, Logic.toNat]
    rw [natToBits, bitsToNat_append, bitsToNat_singleton, ih, hb]
    simp only [List.length_singleton, Nat.pow_one]
    rw [Nat.pow_succ, Nat.mul_comm (2 ^ w) 2, Nat.mod_mul]
    omega

@[simp] theorem bitsToNat_replicate_zero (k : Nat) :
    bitsToNat (List.replicate k Logic.zero) = 0 := by
  induction k with
  | zero => rfl
  | succ k ih =>
    rw [List.replicate_succ', bitsToNat_append, ih, bitsToNat_singleton]; simp [Logic.toNat]

@[simp] theorem isResolvable_replicate_zero (k : Nat) :
    isResolvable (List.replicate k Logic.zero) = true := by
  simp [isResolvable, Logic.isResolvable]

@[simp] theorem byteBits_length (b : Byte) : (byteBits b).length = 8 := by simp [byteBits]

@[simp] theorem isResolvable_byteBits (b : Byte) : isResolvable (byteBits b) = true := by
  simp [byteBits]

@[simp] theorem bitsToNat_byteBits (b : Byte) : bitsToNat (byteBits b) = b.toNat := by
  rw [byteBits, bitsToNat_natToBits]
  exact Nat.mod_eq_of_lt b.isLt

@[simp] theorem joinBytes_nil : joinBytes [] = [] := rfl

@[simp] theorem joinBytes_append (a b : Bytes) : joinBytes (a ++ b) = joinBytes a ++ joinBytes b := by
  simp [joinBytes]

@[simp] theorem joinBytes_cons (a : Byte) (b : Bytes) :
    joinBytes (a :: b) = byteBits a ++ joinBytes b := by
  simp [joinBytes]

@[simp] theorem joinBytes_length (b : Bytes) : (joinBytes b).length = 8 * b.length := by
  induction b with
  | nil => rfl
  | cons b v ih => simp [ih]; omega

@[simp] theorem isResolvable_joinBytes (b : Bytes) : isResolvable (joinBytes b) = true := by
  induction b with
  | nil => rfl
  | cons b v ih => simp [ih]

theorem joinBytes_replicate_zero (k : Nat) :
    joinBytes (List.replicate k (0 : Byte)) = List.replicate (8 * k) Logic.zero := by
  induction k with
  | zero => rfl
  | succ k ih =>
    rw [List.replicate_succ, joinBytes_cons, ih, Nat.mul_succ, Nat.add_comm, ← List.replicate_append_replicate]
    congr 1

theorem leVal_lt (b : Bytes) : leVal b < 256 ^ b.length := by
  induction b with
  | nil => simp [leVal]
  | cons b r ih =>
    simp only [leVal, List.length_cons, Nat.pow_succ]
    have := b.isLt
    omega

theorem leVal_append (a b : Bytes) : leVal (a ++ b) = leVal a + 256 ^ a.length * leVal b := by
  induction a with
  | nil => simp [leVal]
  | cons x r ih =>
    simp only [List.cons_append, leVal, ih, List.length_cons, Nat.pow_succ, Nat.mul_add]
    rw [Nat.mul_comm (256 ^ r.length) 256, Nat.mul_assoc, Nat.add_assoc]

theorem natToBytesLE_leVal (b : Bytes) : natToBytesLE b.length (leVal b) = b := by
  induction b with
  | nil => rfl
  | cons b r ih =>
    have hb := b.isLt
    have h1 : (b.toNat + 256 * leVal r) / 256 = leVal r := by omega
    have h2 : BitVec.ofNat 8 (b.toNat + 256 * leVal r) = b := by
      apply BitVec.eq_of_toNat_eq
      simp only [BitVec.toNat_ofNat]
      omega
    simp only [List.length_cons, leVal, natToBytesLE, h1, h2, ih]

@[simp] theorem natToBytesLE_length (k n : Nat) : (natToBytesLE k n).length = k := by
  induction k generalizing n with
  | zero => rfl
  | succ k ih => simp [natToBytesLE, ih]

theorem leVal_natToBytesLE (k n : Nat) : leVal (natToBytesLE k n) = n % 256 ^ k := by
  induction k generalizing n with
  | zero => simp [natToBytesLE, leVal, Nat.mod_one]
  | succ k ih =>
    simp only [natToBytesLE, leVal, ih, BitVec.toNat_ofNat]
    rw [Nat.pow_succ 256 k, Nat.mul_comm (256 ^ k) 256, Nat.mod_mul]

theorem bitsToNat_joinBytes (b : Bytes) : bitsToNat (joinBytes b) = leVal b.reverse := by
  induction b with
  | nil => rfl
  | cons b r ih =>
    rw [joinBytes_cons, bitsToNat_append, ih, List.reverse_cons, leVal_append]
    simp only [bitsToNat_byteBits, joinBytes_length, List.length_reverse, leVal, Nat.mul_zero, Nat.add_zero]
    rw [Nat.pow_mul, Nat.mul_comm, Nat.add_comm]

/-- Reading back any bit string made of whole bytes. -/
theorem convert_joinBytes (b : Bytes) (be : Bool) :
    convertBinaryToBytes (.array (joinBytes b)) be = .ok (if be then b else b.reverse) := by
  have h : (8 * b.length + 7) / 8 = b.reverse.length := by rw [List.length_reverse]; omega
  simp only [convertBinaryToBytes, toUnsigned, isResolvable_joinBytes, if_true, joinBytes_length,
    bitsToNat_joinBytes, h, natToBytesLE_leVal, List.reverse_reverse]

theorem createBinaryBytes_eq (b : Bytes) (k : Nat) (be : Bool) (h : b.length ≤ k) :
    createBinaryBytes b (8 * k) be =
      .ok (.array (joinBytes (if be then b ++ List.replicate (k - b.length) 0
        else List.replicate (k - b.length) 0 ++ b.reverse))) := by
  have h1 : 8 * k ≠ 1 := by omega
  have h2 : 8 * k - 8 * b.length = 8 * (k - b.length) := by omega
  have h3 : 8 * b.length + 8 * (k - b.length) = 8 * k := by omega
  have h4 : 8 * (k - b.length) + 8 * b.length = 8 * k := by omega
  unfold createBinaryBytes
  rw [if_neg h1]
  cases be <;>
    simp only [joinBytes_length, List.length_reverse, List.length_append, List.length_replicate, h2, h3, h4,
      if_true, joinBytes_append, joinBytes_replicate_zero, Bool.false_eq_true, if_false]

end CocotbBus
