import Verif.Model.Base

/-!
# `src/cocotb_bus/_compat.py` (cocotb 2.x branch)
-/

namespace CocotbBus

/-- cocotb `LogicArray.is_resolvable`. -/
def isResolvable (v : LogicArray) : Bool := v.all Logic.isResolvable

/-- Unsigned value of a bit list, most significant bit first (all bits assumed resolvable). -/
def bitsToNat (v : LogicArray) : Nat := v.foldl (fun acc b => acc * 2 + b.toNat) 0

/-- cocotb `LogicArray.to_unsigned` / `int(value)`: ValueError on X or Z. -/
def toUnsigned (v : LogicArray) : Except PyErr Nat :=
  if isResolvable v then .ok (bitsToNat v) else .error .valueError

/-- `width` bits of `n`, most significant first. -/
def natToBits (width n : Nat) : LogicArray :=
  match width with
  | 0 => []
  | w + 1 => natToBits w (n / 2) ++ [Logic.ofBool (n % 2 == 1)]

/-- Python `int.to_bytes(k, "little")` for `n < 256^k`. -/
def natToBytesLE (k n : Nat) : Bytes :=
  match k with
  | 0 => []
  | k + 1 => BitVec.ofNat 8 n :: natToBytesLE k (n / 256)

/-- `format(char, "08b")` (_compat.py:30), as a bit list. -/
def byteBits (b : Byte) : LogicArray := natToBits 8 b.toNat

/-- What `create_binary` returns: a single `Logic` when `bit_count == 1`, otherwise a
`LogicArray` (_compat.py:19-20 and 37). -/
inductive BinVal where
  | logic (l : Logic)
  | array (v : LogicArray)
  deriving DecidableEq, Repr

/-- `"".join([format(char, "08b") for char in binstr])` (_compat.py:30). -/
def joinBytes (b : Bytes) : LogicArray := b.flatMap byteBits

/-- `create_binary(binstr: bytes, bit_count, big_endian)` (_compat.py:16-37), the bytes case.
`Logic(bytes)` raises (cocotb: TypeError/ValueError, here `valueError`); `LogicArray(str, range)`
with a string whose length differs from the range raises ValueError. `"0" * negative` is "". -/
def createBinaryBytes (b : Bytes) (bitCount : Nat) (bigEndian : Bool) : Except PyErr BinVal :=
  if bitCount = 1 then .error .valueError
  else
    let b' := if bigEndian then b else b.reverse
    let s := joinBytes b'
    let pad : LogicArray := List.replicate (bitCount - s.length) Logic.zero
    let s' := if bigEndian then s ++ pad else pad ++ s
    if s'.length = bitCount then .ok (.array s') else .error .valueError

/-- `create_binary(binstr: str, bit_count, big_endian)` (_compat.py:16-37), the string case. -/
def createBinaryStr (s : LogicArray) (bitCount : Nat) : Except PyErr BinVal :=
  if bitCount = 1 then
    match s with
    | [l] => .ok (.logic l)
    | _ => .error .valueError
  else if s.length = bitCount then .ok (.array s) else .error .valueError

/-- `create_binary(n: int, bit_count, big_endian)` (_compat.py:16-37), the integer case:
`Logic(n)` accepts 0 and 1; `LogicArray(n, range)` is the unsigned representation, an error if it does not fit. -/
def createBinaryInt (n : Nat) (bitCount : Nat) : Except PyErr BinVal :=
  if bitCount = 1 then
    if n = 0 then .ok (.logic .zero) else if n = 1 then .ok (.logic .one) else .error .valueError
  else if n < 2 ^ bitCount then .ok (.array (natToBits bitCount n)) else .error .overflowError

/-- `convert_binary_to_bytes(value, big_endian)` (_compat.py:39-40):
`LogicArray.to_bytes` is `to_unsigned().to_bytes(ceil(len/8), byteorder)`; `Logic` has no `to_bytes`. -/
def convertBinaryToBytes (v : BinVal) (bigEndian : Bool) : Except PyErr Bytes :=
  match v with
  | .logic _ => .error .attributeError
  | .array a =>
    match toUnsigned a with
    | .error e => .error e
    | .ok n =>
      let le := natToBytesLE ((a.length + 7) / 8) n
      .ok (if bigEndian then le.reverse else le)

/-- `binary_slice(value, start, end)` (_compat.py:42-43): `value[value.range[start] : value.range[end]]`,
both ends included; indices outside the range raise IndexError. -/
def binarySlice (v : LogicArray) (start stop : Nat) : Except PyErr LogicArray :=
  if start < v.length ∧ stop < v.length then
    if start ≤ stop then .ok ((v.drop start).take (stop + 1 - start)) else .error .indexError
  else .error .indexError

end CocotbBus
