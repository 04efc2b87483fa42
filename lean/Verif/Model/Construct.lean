import Verif.Model.Bus

/-!
# What the AXI constructors do to the bus: `drivers/amba.py`

Signals are as in `Model/Bus.lean`: names bound to handles, and a value for every handle. Starting the coroutines of the slave and
creating the locks are not here (`Model/AxiSlave.lean`, `Model/AxiQueue.lean`).
-/

namespace CocotbBus

/-- `self.bus.NAME.value = v`: AttributeError if there is no such attribute, or if it is `None` (bus.py:88-103). -/
def Bus.assign (b : Bus) (name : String) (v : Nat) (st : Store Nat) : Store Nat × Option PyErr :=
  match dictGet b.signals name with
  | some (some h) => (st.set h v, none)
  | _ => (st, some .attributeError)

/-- Assignments one after the other, up to the first exception. -/
def Bus.assignAll (b : Bus) : List (String × Nat) → Store Nat → Store Nat × Option PyErr
  | [], st => (st, none)
  | (name, v) :: r, st =>
    match b.assign name v st with
    | (st, some e) => (st, some e)
    | (st, none) => b.assignAll r st

/-- `try: getattr(self.bus, signal).value = 0; except AttributeError: pass` for each (drivers/amba.py:136-140). -/
def Bus.zeroPresent (b : Bus) (names : List String) (st : Store Nat) : Store Nat :=
  names.foldl (fun st n => (b.assign n 0 st).1) st

/-- `unsupported_signals` (drivers/amba.py:122-135). -/
def axiUnsupported : List String :=
  ["AWID", "AWREGION", "AWLOCK", "AWCACHE", "AWPROT", "AWQOS", "ARID", "ARREGION", "ARLOCK", "ARCACHE", "ARPROT", "ARQOS"]

/-- `AXI4Master.__init__` (drivers/amba.py:102-140), also of `AXI4LiteMaster`. -/
def axiMasterInit (b : Bus) (st : Store Nat) : Store Nat × Option PyErr :=
  match b.assignAll [("AWVALID", 0), ("WVALID", 0), ("ARVALID", 0), ("BREADY", 1), ("RREADY", 1)] st with
  | (st, some e) => (st, some e)
  | (st, none) => (b.zeroPresent axiUnsupported st, none)

/-- `AXI4Slave.__init__` (drivers/amba.py:743-761). -/
def axiSlaveInit (b : Bus) (st : Store Nat) : Store Nat × Option PyErr :=
  b.assignAll [("ARREADY", 1), ("RVALID", 0), ("RLAST", 0), ("AWREADY", 1)] st

end CocotbBus
