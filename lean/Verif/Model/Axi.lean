import Verif.Model.Compat
import Verif.Model.AvalonST

/-!
# AXI4 master, the parts without time: `drivers/amba.py:28-31, 149-193, 246-301, 363-366, 450-479, 484-485, 519-534, 552-560`

Simplifications: addresses and data values are natural numbers (Python's `&` with a non-negative mask makes the result for
negative values the same as for their remainder modulo a power of two); messages of exceptions are left out; the index range of a
`LogicArray` is not modelled.
-/

namespace CocotbBus

/-- `AXIBurst` (drivers/amba.py:28-31). -/
inductive AxiBurst where
  | fixed
  | incr
  | wrap
  deriving DecidableEq, Repr

/-- The value of a burst type (drivers/amba.py:29-31). -/
def AxiBurst.code : AxiBurst → Nat
  | .fixed => 0
  | .incr => 1
  | .wrap => 2

/-- Python's `int.bit_length`. -/
def bitLength (n : Nat) : Nat := if n = 0 then 0 else Nat.log2 n + 1

/-- `_check_length` (drivers/amba.py:149-165). -/
def axiCheckLength (length : Int) (burst : AxiBurst) : Except PyErr Unit :=
  if length ≤ 0 then .error .valueError
  else match burst with
  | .incr => if length > 256 then .error .valueError else .ok ()
  | .wrap => if length ∈ [1, 2, 4, 8, 16] then .ok () else .error .valueError
  | .fixed => if length > 16 then .error .valueError else .ok ()

/-- `size & (size - 1)` for a positive integer (drivers/amba.py:176). -/
def andPred (size : Int) : Nat := size.toNat &&& (size - 1).toNat

/-- `_check_size` (drivers/amba.py:167-177); `busBytes` is the width of the data bus in bytes. -/
def axiCheckSize (size : Int) (busBytes : Nat) : Except PyErr Unit :=
  if size > busBytes then .error .valueError
  else if size ≤ 0 ∨ andPred size ≠ 0 then .error .valueError
  else .ok ()

/-- `a & ~0xFFF` (drivers/amba.py:186) for a natural number. -/
def page4k (a : Nat) : Nat := a - a % 0x1000

/-- `_check_4kB_boundary_crossing` (drivers/amba.py:179-193). -/
def axiCheck4k (address : Nat) (burst : AxiBurst) (size length : Nat) : Except PyErr Unit :=
  match burst with
  | .incr => if page4k address ≠ page4k (address + size * (length - 1)) then .error .valueError else .ok ()
  | _ => .ok ()

/-- The size of a beat: that of the bus unless given (drivers/amba.py:363-366, 476-479). -/
def axiSize (size : Option Int) (busBytes : Nat) : Except PyErr Nat :=
  match size with
  | none => .ok busBytes
  | some s => do
    axiCheckSize s busBytes
    pure s.toNat

/-! ### Write data (drivers/amba.py:246-301) -/

/-- `strobes` (drivers/amba.py:262-273): `n` to go, the iterator, those so far. IndexError if there is none at all. -/
def axiStrobes (size : Nat) : Nat → List (Option Nat) → List Nat → Except PyErr (List Nat)
  | 0, _, acc => .ok acc
  | n + 1, [], acc =>
    match acc.getLast? with
    | none => .error .indexError
    | some l => .ok (acc ++ List.replicate (n + 1) l)
  | n + 1, b :: r, acc => axiStrobes size n r (acc ++ [b.getD (2 ^ size - 1)])

/-- `unalign_data` (drivers/amba.py:251-260). -/
def axiUnalign (data : List Nat) (sizeBits shift : Nat) : List Nat :=
  let padded := 0 :: data
  let lowMask := 2 ^ (sizeBits - shift) - 1
  let highMask := (2 ^ shift - 1) <<< (sizeBits - shift)
  (List.range data.length).map (fun i =>
    ((padded.getD i 0 &&& highMask) >>> (sizeBits - shift)) ||| ((padded.getD (i + 1) 0 &&& lowMask) <<< shift))

/-- Data or strobes after un-alignment (drivers/amba.py:275-283); the unit is 8 bits for data and 1 bit for strobes. -/
def axiShifted (unit address size : Nat) (burst : AxiBurst) (data : List Nat) : List Nat :=
  if address % size ≠ 0 then
    match burst with
    | .fixed => data.map (fun w => (w <<< (address % size * unit)) &&& (2 ^ (size * unit) - 1))
    | _ => axiUnalign data (size * unit) (address % size * unit)
  else data

/-- `mask_and_shift` (drivers/amba.py:247-248). -/
def maskAndShift (value blockSize blockNum : Nat) : Nat := (value &&& (2 ^ blockSize - 1)) <<< (blockNum * blockSize)

/-- WDATA and WSTRB of the beats (drivers/amba.py:289-300), `block` being `narrow_block`. -/
def axiLanes (busBytes size : Nat) (burst : AxiBurst) : Nat → List (Nat × Nat) → List (Nat × Nat)
  | _, [] => []
  | block, (word, strobe) :: r =>
    (maskAndShift word (size * 8) block, maskAndShift strobe size block) ::
      axiLanes busBytes size burst (if burst = .fixed then block else (block + 1) % (busBytes / size)) r

/-- All beats of a write (drivers/amba.py:262-300). -/
def axiWriteBeats (busBytes size address : Nat) (burst : AxiBurst) (data : List Nat) (byteEnable : List (Option Nat)) :
    Except PyErr (List (Nat × Nat)) := do
  let strobes ← axiStrobes size data.length byteEnable []
  pure (axiLanes busBytes size burst (address % busBytes / size)
    ((axiShifted 8 address size burst data).zip (axiShifted 1 address size burst strobes)))

/-! ### Read data (drivers/amba.py:450-474, 484-485, 519-534, 552-560) -/

/-- `shift_and_mask` (drivers/amba.py:451-459). Simplification: a slice reaching beyond the bus is an IndexError (Python would count
negative indices from the other end). -/
def shiftAndMask (v : LogicArray) (bytesNum byteShift : Nat) : Except PyErr LogicArray :=
  if v.length < (bytesNum + byteShift) * 8 then .error .indexError
  else binarySlice v (v.length - (bytesNum + byteShift) * 8) (v.length - byteShift * 8 - 1)

/-- The byte offset of the next beat (drivers/amba.py:531-532). -/
def axiNextOffset (busBytes size : Nat) (burst : AxiBurst) (offset : Nat) : Nat :=
  if burst = .fixed then offset else (offset + size) % busBytes

/-- The words taken from successive beats (drivers/amba.py:516-534), `offset` being `byte_offset`. -/
def axiSlices (busBytes size : Nat) (burst : AxiBurst) : Nat → List LogicArray → Except PyErr (List LogicArray)
  | _, [] => .ok []
  | offset, v :: r => do
    let w ← shiftAndMask v size offset
    let ws ← axiSlices busBytes size burst (axiNextOffset busBytes size burst offset) r
    pure (w :: ws)

/-- `create_binary(binstr, len(binstr), big_endian=True)` (drivers/amba.py:472). -/
def axiWord (bits : LogicArray) : Except PyErr LogicArray := do
  let v ← createBinaryStr bits bits.length
  pure v.bits

/-- `l[a:b]` -/
def pySlice {α : Type} (l : List α) (a b : Nat) : List α := (l.take b).drop a

/-- `realign_data` (drivers/amba.py:462-474). -/
def axiRealign (data : List LogicArray) (sizeBits shift : Nat) : Except PyErr (List LogicArray) :=
  let joined := (data.flatMap List.reverse).drop shift
  (List.range data.length).mapM (fun i => axiWord (pySlice joined (i * sizeBits) ((i + 1) * sizeBits)).reverse)

/-- Re-alignment of what was read (drivers/amba.py:552-560). -/
def axiReadWords (size address : Nat) (burst : AxiBurst) (data : List LogicArray) : Except PyErr (List LogicArray) :=
  if address % size ≠ 0 then
    match burst with
    | .fixed => data.mapM (fun w => binarySlice w 0 (size * 8 - address % size * 8 - 1))
    | _ => axiRealign data (size * 8) (address % size * 8)
  else .ok data

end CocotbBus
