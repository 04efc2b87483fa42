import Verif.Model.AxiSlave

/-! # What the data phase of an AXI slave should do -/

namespace CocotbBus.Spec

/-- The bytes of a beat as bits of the data bus: the byte with the lowest address is the least significant one, or the most
significant one for a big-endian bus. -/
def beatBits (bigEndian : Bool) (b : Bytes) : LogicArray := joinBytes (if bigEndian then b else b.reverse)

/-- What the master shows in a cycle of the data phase of a write: a beat, or nothing. -/
def ShowsBeat (bigEndian : Bool) (i : AsIn) : Option Bytes → Prop
  | some b => i.wvalid = .one ∧ i.wdata = beatBits bigEndian b
  | none => i.wvalid ≠ .one

/-- Memory after storing `data` at `addr`. -/
def stored (mem : Bytes) (addr : Nat) (data : Bytes) : Bytes := mem.take addr ++ data ++ mem.drop (addr + data.length)

end CocotbBus.Spec
