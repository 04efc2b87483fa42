import Verif.Model.Base

/-!
# The names of drivers and monitors: `drivers/__init__.py:242-257, 296-298`, `monitors/__init__.py:174-176, 198-199`
-/

namespace CocotbBus

/-- `"%s" % x` of a string or `None`. -/
def pyStr (x : Option String) : String := x.getD "None"

/-- `"%d" % i`. -/
def pyDec (i : Int) : String := i.repr

/-- `BusDriver.name`, for the arguments `name` and `array_idx` of the constructor (drivers/__init__.py:242, 257). Simplification: an `array_idx` is
an integer. -/
def driverName (name : Option String) (arrayIdx : Option Int) : Option String :=
  match arrayIdx with
  | none => name
  | some i => some (pyStr name ++ "_" ++ pyDec i)

/-- `BusDriver.__str__` (drivers/__init__.py:296-298). -/
def driverStr (name : Option String) (arrayIdx : Option Int) : String := pyStr (driverName name arrayIdx)

/-- The name of the logger of a driver or monitor (drivers/__init__.py:244, monitors/__init__.py:174); `array_idx` is not used. -/
def busLogger (entity : String) (name : Option String) (_arrayIdx : Option Int) : String := "cocotb." ++ entity ++ "." ++ pyStr name

/-- `BusMonitor.name` (monitors/__init__.py:176): `array_idx` is one of the keyword arguments that go to `Bus` (178-184) and is not used. -/
def monitorName (name : Option String) (_arrayIdx : Option Int) : Option String := name

/-- `BusMonitor.__str__` (monitors/__init__.py:198-199). -/
def monitorStr (cls : String) (name : Option String) (arrayIdx : Option Int) : String := cls ++ "(" ++ pyStr (monitorName name arrayIdx) ++ ")"

end CocotbBus
