import Verif.Model.Axi
import Verif.Spec.AvalonMemory

/-!
# AXI4: specification vocabulary

The address equations of the AXI4 specification (ARM IHI 0022, "Burst address"), and a memory that obeys them.
`W` is the number of bytes of the data bus, `size` the number of bytes of a beat.
-/

namespace CocotbBus.Spec

/-- Aligned_Address. -/
def alignedAddr (size a : Nat) : Nat := a / size * size

/-- Address_N of beat number `n` (counted from 0) of a burst of `len` beats. -/
def beatAddr (size : Nat) (burst : AxiBurst) (a len n : Nat) : Nat :=
  match burst with
  | .fixed => a
  | .incr => if n = 0 then a else alignedAddr size a + n * size
  | .wrap =>
    let boundary := a / (size * len) * (size * len)
    boundary + (a - boundary + n * size) % (size * len)

/-- The bytes addressed by a beat: from its address up to the end of the block of `size` bytes containing it. -/
def InBeat (size : Nat) (burst : AxiBurst) (a len n b : Nat) : Prop :=
  beatAddr size burst a len n ≤ b ∧ b < alignedAddr size (beatAddr size burst a len n) + size

/-- One accepted data beat on a byte memory: the bytes of the bus word containing `a` whose strobe is set are replaced. -/
def axiStore (W a : Nat) (beat : Nat × Nat) (mem : Nat → Byte) : Nat → Byte := fun b =>
  if b / W = a / W ∧ beat.2.testBit (b % W) then byteOf beat.1 (b % W) else mem b

/-- The beats of a burst, one after the other, from number `n` on. -/
def axiStoreAll (W size : Nat) (burst : AxiBurst) (a len : Nat) : Nat → List (Nat × Nat) → (Nat → Byte) → (Nat → Byte)
  | _, [], mem => mem
  | n, beat :: r, mem => axiStoreAll W size burst a len (n + 1) r (axiStore W (beatAddr size burst a len n) beat mem)

/-- Is byte `j` of value `i` to be written? The last byte enable counts for all further values; `None` enables all bytes. -/
def axiEnabled (be : List (Option Nat)) (i j : Nat) : Bool :=
  match (be[i]?).getD (be.getLast?.getD none) with
  | none => true
  | some m => m.testBit j

/-- Lane `l` of a bus word (bits most significant first, as everywhere). -/
def lane (v : LogicArray) (l : Nat) : LogicArray := (v.drop (v.length - 8 * (l + 1))).take 8

/-- `k` bytes of a memory from address `a` on as a little-endian word. The memory may contain X's. -/
def memWord (mem : Nat → LogicArray) (a k : Nat) : LogicArray := (List.range k).reverse.flatMap (fun j => mem (a + j))

/-- The data beats with which a memory answers a read: right on the lanes of the bytes addressed, anything elsewhere.
`mem n` is the memory when beat `n` is read (a FIXED burst may well read a FIFO). -/
def AxiAnswers (W size : Nat) (burst : AxiBurst) (a len : Nat) (mem : Nat → Nat → LogicArray) (rdata : List LogicArray) : Prop :=
  rdata.length = len ∧
  ∀ n v, rdata[n]? = some v → v.length = 8 * W ∧ ∀ b, InBeat size burst a len n b → lane v (b % W) = mem n b

end CocotbBus.Spec
