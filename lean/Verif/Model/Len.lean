import Verif.Model.AvalonMM
import Verif.Model.AxiMaster

/-! `len(master)` and the truth value of a master. -/

namespace CocotbBus

/-- `sys.maxsize` of a 64-bit CPython, the largest length that `len` can return. -/
def pyMaxsize : Nat := 2 ^ 63 - 1

/-- Python's `len(x)` for an `x` whose `__len__` returns `n`: a larger number does not fit into a length. -/
def pyLen (n : Nat) : Except PyErr Nat := if n ≤ pyMaxsize then .ok n else .error .overflowError

/-- Python's `bool(x)`, also in `if x:` and `x or y`, for an `x` with `__len__` but without `__bool__`. -/
def pyBool (n : Nat) : Except PyErr Bool := (pyLen n).map (fun k => k != 0)

/-- `AvalonMaster.__len__` (drivers/avalon.py:90-91), `AXI4Master.__len__` (drivers/amba.py:585-586), which `AXI4LiteMaster` inherits;
`addrW` is the number of bits of the address, for AXI of the read address. -/
def dunderLen (addrW : Nat) : Nat := 2 ^ addrW

/-- `len(master)`. -/
def masterLen (addrW : Nat) : Except PyErr Nat := pyLen (dunderLen addrW)

/-- `bool(master)`. -/
def masterBool (addrW : Nat) : Except PyErr Bool := pyBool (dunderLen addrW)

end CocotbBus
