import Verif.Model.AxiUse
import Verif.Spec.Bytes

/-!
# The AXI4 tests

The tests of tests/test_cases/test_axi4/test_axi4.py that write and read memory: the calls they make, and what they expect from the last read, with the random
numbers they draw as parameters. In the model the expected values are computed for all words of the read; some tests look at the first ones only, as noted.
-/

namespace CocotbBus

/-- `add_wstrb_mask` (test_axi4.py:38-44), for the bytes from `i` on. -/
def addWstrbFrom (previous value wstrb : Nat) : Nat → Nat → Nat → Nat
  | 0, _, result => result
  | k + 1, i, result => addWstrbFrom previous value wstrb k (i + 1) (result ||| ((if wstrb &&& (1 <<< i) ≠ 0 then value else previous) &&& (0xFF <<< (i * 8))))

/-- `add_wstrb_mask` (test_axi4.py:38-44). -/
def addWstrbMask (dataWidth previous value wstrb : Nat) : Nat := addWstrbFrom previous value wstrb dataWidth 0 0

/-- `read == n` for a word that was read and an integer, and `int(read)`: a word with X's is not a number (test_axi4.py:42, 49, 98). -/
def asInt (v : LogicArray) : Option Nat := if isResolvable v then some (bitsToNat v) else none

/-- A test and what it drew. -/
inductive AxTest where
  | single (address value strobe addressLatency dataLatency : Nat)
  | incr (address : Nat) (values strobes : List Nat) (size : Option Int)
  | sameBurst (burst : AxiBurst) (address : Nat) (values : List Nat) (size : Option Int)
  | narrow (address : Nat) (values : List Nat) (half : Nat)
  | readUnaligned (burst : AxiBurst) (address shift : Nat) (values : List Nat) (size : Option Int)
  | writeUnaligned (burst : AxiBurst) (address shift first : Nat) (values : List Nat) (size : Option Int)

/-- The calls made by the tests (test_axi4.py:82-90, 130-134, 187-200, 220-222, 266-267, 289-291). -/
def AxTest.ops (c : AxCfg) : AxTest → List AxOp
  | .single a v strb al dl =>
    if c.full then [.read a 1 none .incr true, .write a [v] none .incr [some strb] al dl true, .read a 1 none .incr true]
    else [.liteRead a true, .liteWrite a v (some strb) al dl true, .liteRead a true]
  | .incr a vs strbs size =>
    [.read a vs.length size .incr true, .write a vs size .incr (strbs.map some) 0 0 true, .read a vs.length size .incr true]
  | .sameBurst burst a vs size => [.write a vs size burst [none] 0 0 true, .read a vs.length size burst true]
  | .narrow a vs half => [.write a vs (some half) .incr [none] 0 0 true, .read a (vs.length / 2 : Nat) none .incr true]
  | .readUnaligned burst a shift vs size => [.write a vs size burst [none] 0 0 true, .read (a + shift) vs.length size burst true]
  | .writeUnaligned burst a shift first vs size =>
    [.write a [first] size burst [none] 0 0 true, .write (a + shift) vs size burst [none] 0 0 true, .read a vs.length size burst true]

/-- `size if size else data_width` (test_axi4.py:117, 176, 245). -/
def testSize (c : AxCfg) (size : Option Int) : Nat := (size.map Int.toNat).getD c.dataBytes

/-- The words of a string of bytes (test_axi4.py:239-240, 273-277, 300-305). -/
def wordsOfBytes (size n : Nat) (b : Bytes) : List Nat := (List.range n).map fun i => leVal ((b.drop (i * size)).take size)

/-- The bytes of words (test_axi4.py:238-240, the other way round). -/
def bytesOfWords (size : Nat) (l : List Nat) : Bytes := l.flatMap (natToBytesLE size)

/-- What the tests expect from the last read, `previous` being the values of the first one (test_axi4.py:96, 146-152, 189-198, 224-227 for the even ones,
269-277, 293-305 for all but the last word). -/
def AxTest.expected (c : AxCfg) (previous : List Nat) : AxTest → List Nat
  | .single _ v strb _ _ => [addWstrbMask c.dataBytes (previous.headD 0) v strb]
  | .incr _ vs strbs size =>
    List.zipWith (fun p (x : Nat × Nat) => addWstrbMask (testSize c size) p x.1 x.2) previous (vs.zip (strbs ++ [strbs.getLastD 0]))
  | .sameBurst burst _ vs _ => if burst = .fixed then List.replicate vs.length (vs.getLastD 0) else vs
  | .narrow _ vs _ => (List.range (vs.length / 2)).map fun i => vs.getD (2 * i + 1) 0 <<< 16 ||| vs.getD (2 * i) 0
  | .readUnaligned burst _ shift vs size =>
    let sz := testSize c size
    if burst = .fixed then List.replicate vs.length ((vs.getLastD 0 >>> (shift * 8)) &&& (2 ^ ((sz - shift) * 8) - 1))
    else wordsOfBytes sz vs.length ((bytesOfWords sz vs).drop shift)
  | .writeUnaligned burst _ shift first vs size =>
    let sz := testSize c size
    if burst = .fixed then
      List.replicate vs.length (first &&& (2 ^ (shift * 8) - 1) ||| (vs.getLastD 0 <<< (shift * 8)) &&& ((2 ^ ((sz - shift) * 8) - 1) <<< (shift * 8)))
    else wordsOfBytes sz vs.length (natToBytesLE shift (first &&& (2 ^ (shift * 8) - 1)) ++ bytesOfWords sz vs)

/-- `illegal_operations` (test_axi4.py:357-366). -/
def illegalOps (dataWidth : Nat) : List (AxiBurst × Int × Option Int) :=
  [(.incr, -1, none), (.incr, 0, none), (.fixed, 17, none), (.incr, 257, none), (.wrap, 3, none), (.incr, 4, some (-1)), (.incr, 4, some (dataWidth - 1)),
   (.incr, 4, some (dataWidth * 2))]

/-- The calls of `test_unmapped` (test_axi4.py:334-346): a read and a write of two words with AXI4, of one with AXI4-Lite. -/
def unmappedOps (c : AxCfg) (address address' value : Nat) : List AxOp :=
  if c.full then [.read address 2 none .incr true, .write address' [value, value] none .incr [none] 0 0 true]
  else [.liteRead address true, .liteWrite address' value none 0 0 true]

end CocotbBus
