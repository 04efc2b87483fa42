import Verif.Model.Compat

/-!
# `src/cocotb_bus/_compat.py`, cocotb 1.x branch (lines 48-71)

`BinaryValue` belongs to cocotb 1.x (`cocotb/binary.py`); modelled is what `_compat.py` uses of it: the constructor with `n_bits`,
`binstr`, `buff` and slices. Values are unsigned; X is not resolved (`COCOTB_RESOLVE_X` at its default, VALUE_ERROR). Warnings are left out.
-/

namespace CocotbBus

/-- A `BinaryValue`: its bit string and byte order. -/
structure BinaryValue where
  bits : LogicArray
  bigEndian : Bool
  deriving DecidableEq, Repr

/-- `BinaryValue._adjust`: a string that is too short is filled up with zeros, on the right if `bigEndian`; of one that is too long the
rightmost bits are kept. -/
def bvAdjust (n : Nat) (bigEndian : Bool) (s : LogicArray) : LogicArray :=
  if s.length ≤ n then
    if bigEndian then s ++ List.replicate (n - s.length) .zero else List.replicate (n - s.length) .zero ++ s
  else s.drop (s.length - n)

/-- `bin(n)[2:]`. -/
def binDigits (n : Nat) : LogicArray := if n = 0 then [.zero] else natToBits (Nat.log2 n + 1) n

/-- `create_binary(bytes, bit_count, big_endian)` (_compat.py:54-57), by the setter of `BinaryValue.buff`. -/
def createBinary1Bytes (b : Bytes) (n : Nat) (bigEndian : Bool) : BinaryValue :=
  ⟨bvAdjust n bigEndian (joinBytes (if bigEndian then b else b.reverse)), bigEndian⟩

/-- `create_binary(str, bit_count, big_endian)` (_compat.py:54-57), by the setter of `BinaryValue.binstr`. -/
def createBinary1Str (s : LogicArray) (n : Nat) (bigEndian : Bool) : BinaryValue := ⟨bvAdjust n bigEndian s, bigEndian⟩

/-- `create_binary(int, bit_count, big_endian)` (_compat.py:54-57), by the setter of `BinaryValue.integer`. -/
def createBinary1Int (v n : Nat) (bigEndian : Bool) : BinaryValue := ⟨bvAdjust n bigEndian (binDigits v), bigEndian⟩

/-- `k` bytes, most significant first. -/
def bytesMSB : Nat → LogicArray → Bytes
  | 0, _ => []
  | k + 1, v => BitVec.ofNat 8 (bitsToNat (v.take 8)) :: bytesMSB k (v.drop 8)

/-- `BinaryValue.buff`: filled up with zeros on the left to whole bytes. -/
def BinaryValue.buff (v : BinaryValue) : Except PyErr Bytes :=
  if isResolvable v.bits then
    let k := (v.bits.length + 7) / 8
    let l := bytesMSB k (List.replicate (8 * k - v.bits.length) .zero ++ v.bits)
    .ok (if v.bigEndian then l else l.reverse)
  else .error .valueError

/-- `convert_binary_to_bytes(value, big_endian)` (_compat.py:59-65). -/
def convertBinary1ToBytes (v : BinaryValue) (bigEndian : Bool) : Except PyErr Bytes :=
  (createBinary1Str v.bits v.bits.length bigEndian).buff

/-- `binary_slice(value, start, end)` (_compat.py:67-69) of a value read from a signal, which has `bigEndian` set: `BinaryValue.__getitem__`. -/
def binarySlice1 (v : BinaryValue) (start stop : Nat) : Except PyErr LogicArray :=
  if stop > v.bits.length - 1 ∨ v.bits.length = 0 then .error .indexError
  else if start > stop then .error .indexError
  else .ok ((v.bits.take (stop + 1)).drop start)

end CocotbBus
