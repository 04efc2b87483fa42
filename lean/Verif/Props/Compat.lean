import Verif.Proof.Compat

/-! # Properties C08, C09: bytes/bit-vector conversion -/

namespace CocotbBus

/-- C08 (same byte order, whole-byte bus of `k ≥ len(b)` bytes): the bytes come back, followed by zero bytes. -/
theorem C08_roundtrip_padded (b : Bytes) (k : Nat) (bigEndian : Bool) (h : b.length ≤ k) :
    (createBinaryBytes b (8 * k) bigEndian).bind (convertBinaryToBytes · bigEndian)
      = .ok (b ++ List.replicate (k - b.length) 0) := by
  rw [createBinaryBytes_eq b k bigEndian h]
  cases bigEndian <;> simp [Except.bind, convert_joinBytes, -joinBytes_append]

/-- C08 (exact width): lossless round trip. -/
theorem C08_roundtrip (b : Bytes) (bigEndian : Bool) :
    (createBinaryBytes b (8 * b.length) bigEndian).bind (convertBinaryToBytes · bigEndian) = .ok b := by
  simpa using C08_roundtrip_padded b b.length bigEndian (Nat.le_refl _)

/-- C08 (opposite byte orders): the bytes come back reversed. -/
theorem C08_roundtrip_other_order (b : Bytes) (bigEndian : Bool) :
    (createBinaryBytes b (8 * b.length) bigEndian).bind (convertBinaryToBytes · (!bigEndian))
      = .ok b.reverse := by
  rw [createBinaryBytes_eq b b.length bigEndian (Nat.le_refl _)]
  cases bigEndian <;> simp [Except.bind, convert_joinBytes, -joinBytes_append]

/-- C08 (too narrow): a width smaller than the byte string is rejected with ValueError. -/
theorem C08_too_narrow (b : Bytes) (width : Nat) (bigEndian : Bool) (h : width < 8 * b.length) :
    createBinaryBytes b width bigEndian = .error .valueError := by
  by_cases h1 : width = 1
  · simp [createBinaryBytes, h1]
  · have h2 : width - 8 * b.length = 0 := by omega
    cases bigEndian <;> simp [createBinaryBytes, h1, h2] <;> omega

example : ([0x12, 0x34] : Bytes).length ≤ 3 := by decide
example : (createBinaryBytes [0x12, 0x34] 24 true).bind (convertBinaryToBytes · true)
    = .ok [0x12, 0x34, 0] := by decide
example : (createBinaryBytes [0x12, 0x34] 16 true).bind (convertBinaryToBytes · false)
    = .ok [0x34, 0x12] := by decide
example : 9 < 8 * ([0x12, 0x34] : Bytes).length := by decide

/-- C09: `binary_slice` returns exactly positions `start..stop` (inclusive) of the bit string. -/
theorem C09_slice_bits (v : LogicArray) (start stop : Nat) (h1 : start ≤ stop) (h2 : stop < v.length) :
    ∃ r, binarySlice v start stop = .ok r ∧ r.length = stop + 1 - start ∧
      ∀ i, i < r.length → r[i]? = v[start + i]? := by
  refine ⟨(v.drop start).take (stop + 1 - start), ?_, ?_, ?_⟩
  · have : start < v.length := by omega
    simp [binarySlice, h1, h2, this]
  · simp; omega
  · intro i hi
    simp at hi
    rw [List.getElem?_take, List.getElem?_drop]
    simp; omega

/-- C09: out-of-range slices are rejected, not clipped. -/
theorem C09_slice_out_of_range (v : LogicArray) (start stop : Nat) (h : v.length ≤ stop) :
    binarySlice v start stop = .error .indexError := by
  simp [binarySlice]; omega

/-- C09 (byte lanes): from a word whose lanes are the 8-bit groups `hi ++ sel ++ lo`
(most significant lane first), the slice used by `AXI4Master.read` for `n` bytes starting at
lane `k` (positions `len - (n+k)*8 .. len - k*8 - 1`, drivers/amba.py:451-459) is `sel`. -/
theorem C09_lane_slice (hi sel lo : LogicArray) (n k : Nat) (hn : 0 < n)
    (hsel : sel.length = 8 * n) (hlo : lo.length = 8 * k) :
    binarySlice (hi ++ sel ++ lo) ((hi ++ sel ++ lo).length - (n + k) * 8)
      ((hi ++ sel ++ lo).length - k * 8 - 1) = .ok sel := by
  have e1 : (hi ++ sel ++ lo).length - (n + k) * 8 = hi.length := by simp; omega
  have e2 : (hi ++ sel ++ lo).length - k * 8 - 1 = hi.length + 8 * n - 1 := by simp; omega
  rw [e1, e2]
  have h1 : hi.length < (hi ++ sel ++ lo).length := by simp; omega
  have h2 : hi.length + 8 * n - 1 < (hi ++ sel ++ lo).length := by simp; omega
  have h3 : hi.length ≤ hi.length + 8 * n - 1 := by omega
  have h4 : hi.length + 8 * n - 1 + 1 - hi.length = sel.length := by omega
  simp only [binarySlice, h1, h2, h3, h4, and_self, if_true]
  simp

example : binarySlice (natToBits 16 0xABCD) (16 - 8) (16 - 1) = .ok (natToBits 8 0xCD) := by decide

end CocotbBus
