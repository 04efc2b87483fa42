import Verif.Model.Base
import Mathlib.Logic.Function.Iterate

/-!
# CRC-32

`zlib.crc32` is outside `/repo`; both XGMII modules use it (drivers/xgmii.py:135, monitors/xgmii.py:146). This is the algorithm as it is
documented (RFC 1952, section 8), bit by bit instead of with a table. The models of the driver and the monitor take the function as a
parameter; it is only filled in for the theorems about damaged frames (C109).
-/

namespace CocotbBus

/-- One bit: shift right, and subtract the generator polynomial (bits in reverse order) if a one was shifted out. -/
def crcBit (r : BitVec 32) : BitVec 32 := (r >>> 1) ^^^ (if r.getLsbD 0 then 0xEDB88320#32 else 0#32)

/-- One byte. -/
def crcByte (r : BitVec 32) (b : Byte) : BitVec 32 := crcBit^[8] (r ^^^ b.setWidth 32)

/-- `zlib.crc32(data)`. -/
def crc32 (data : Bytes) : Nat := (~~~ (data.foldl crcByte 0xFFFFFFFF#32)).toNat

end CocotbBus
