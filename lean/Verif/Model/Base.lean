/-!
# Base types of the model

Exceptions as values, four-valued logic, bytes.
-/

namespace CocotbBus

/-- Python exceptions that the modelled code can raise (or lets escape).
`avalonProtocol`/`assertion` carry a tag for the message, `axiProtocol` carries `xresp`
(src/cocotb_bus/drivers/amba.py:41-44). -/
inductive PyErr where
  | attributeError
  | typeError
  | valueError
  | overflowError
  | indexError
  | keyError
  | nameError
  | unboundLocal
  | runtimeError
  | notImplemented
  | stopIteration
  /-- cocotb refuses to write a signal in the ReadOnly phase -/
  | readOnlyWrite
  /-- cocotb 2.x refuses to await ReadOnly in the ReadOnly phase -/
  | readOnlyAwait
  | assertion (msg : String)
  /-- src/cocotb_bus/monitors/avalon.py:24 -/
  | avalonProtocol (msg : String)
  /-- src/cocotb_bus/drivers/amba.py:41-44 -/
  | axiProtocol (xresp : Nat)
  /-- src/cocotb_bus/drivers/amba.py:47 -/
  | axiReadBurstLengthMismatch
  /-- src/cocotb_bus/drivers/opb.py:18 -/
  | opbException
  /-- any other exception, e.g. one raised by user code or a socket -/
  | other (tag : Nat)
  deriving DecidableEq, Repr, Inhabited

-- Results are compared in examples.
deriving instance DecidableEq for Except

/-- A single logic value.  cocotb's `U W L H -` are identified with `x`
(the code only ever distinguishes "0", "1" and "not 0/1"). -/
inductive Logic where
  | zero | one | x | z
  deriving DecidableEq, Repr, Inhabited

/-- `str(handle.value)` of a vector: most significant bit first. -/
abbrev LogicArray := List Logic

/-- A byte. -/
abbrev Byte := BitVec 8

/-- Python `bytes`. -/
abbrev Bytes := List Byte

namespace Logic

/-- The logic value of a Boolean bit. -/
def ofBool : Bool → Logic
  | true => one
  | false => zero

/-- 0/1 test of one bit (`Logic.is_resolvable`). -/
def isResolvable : Logic → Bool
  | zero => true
  | one => true
  | _ => false

/-- Numeric value of a resolvable bit. -/
def toNat : Logic → Nat
  | one => 1
  | _ => 0

end Logic

end CocotbBus
