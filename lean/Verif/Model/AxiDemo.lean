import Verif.Model.AxiUse

/-!
# The AXI4-Lite slave example

The device of examples/axi_lite_slave/hdl: two registers behind an AXI4-Lite slave. It is used with an `AXI4LiteMaster` by
examples/axi_lite_slave/tests/test_axi_lite_slave.py.
-/

namespace CocotbBus

/-- The states of the slave (examples/axi_lite_slave/hdl/axi_lite_slave.v:92-97). -/
inductive DemoState where
  | idle
  | receiveWriteData
  | writeWaitForUser
  | sendWriteResp
  | readWaitForUser
  | sendReadData
  deriving DecidableEq, Repr

/-- The registers of the slave (examples/axi_lite_slave/hdl/axi_lite_slave.v:48-85, 100) and those behind it
(examples/axi_lite_slave/hdl/axi_lite_demo.v:79-93). Simplification: they hold numbers, no unknown bits. -/
structure DemoDev where
  st : DemoState := .idle
  awready : Bool := false
  wready : Bool := false
  bvalid : Bool := false
  bresp : Nat := 0
  arready : Bool := false
  rvalid : Bool := false
  rresp : Nat := 0
  rdata : Nat := 0
  inRdy : Bool := false
  address : Nat := 0
  inData : Nat := 0
  outReq : Bool := false
  invalidAddr : Bool := false
  inAck : Bool := false
  outRdy : Bool := false
  outData : Nat := 0
  temp0 : Nat := 0
  temp1 : Nat := 0
  deriving DecidableEq, Repr

/-- After reset (examples/axi_lite_slave/hdl/axi_lite_slave.v:108-125, axi_lite_demo.v:149-160). -/
def DemoDev.reset : DemoDev := {}

/-- Out of reset, with the given values in the two registers (a test may set them, examples/axi_lite_slave/tests/test_axi_lite_slave.py:77); `started` if there
has been a clock edge since (IDLE raises AWREADY and ARREADY, axi_lite_slave.v:131-132). -/
def DemoDev.fresh (started : Bool) (v0 v4 : Nat) : DemoDev := { DemoDev.reset with awready := started, arready := started, temp0 := v0, temp1 := v4 }

/-- What the device and the master's constructor (drivers/amba.py:111-112: BREADY and RREADY) put on the bus. AXI4-Lite has no RLAST. -/
def DemoDev.pins (d : DemoDev) : AxIn :=
  { awready := Logic.ofBool d.awready, wready := Logic.ofBool d.wready, bvalid := Logic.ofBool d.bvalid, bready := .one, bresp := natToBits 2 d.bresp,
    arready := Logic.ofBool d.arready, rvalid := Logic.ofBool d.rvalid, rready := .one, rdata := natToBits 32 d.rdata, rresp := natToBits 2 d.rresp,
    rlast := .zero }

/-- The registers behind the slave at one clock edge out of reset (examples/axi_lite_slave/hdl/axi_lite_demo.v:148-208). -/
def DemoDev.user (d n : DemoDev) : DemoDev :=
  if d.inRdy then
    { n with
      temp0 := if d.address = 0 then d.inData else d.temp0
      temp1 := if d.address = 4 then d.inData else d.temp1
      outData := d.outData, invalidAddr := decide (d.address > 4), inAck := true, outRdy := false }
  else if d.outReq then
    { n with
      temp0 := d.temp0, temp1 := d.temp1
      outData := if d.address = 0 then d.temp0 else if d.address = 4 then d.temp1 else 0
      invalidAddr := decide (d.address > 4), inAck := false, outRdy := true }
  else { n with temp0 := d.temp0, temp1 := d.temp1, outData := d.outData, invalidAddr := false, inAck := false, outRdy := false }

/-- The slave at one clock edge out of reset (examples/axi_lite_slave/hdl/axi_lite_slave.v:126-212); the registers behind it are not changed here. -/
def DemoDev.slave (d : DemoDev) (o : AxAll) : DemoDev :=
  match d.st with
  | .idle =>
    let n := { d with inRdy := false, address := 0, awready := true, arready := true, rvalid := false, bresp := 0, rresp := 0, bvalid := false, outReq := false, wready := false }
    if o.1.1.valid = .one ∧ d.awready = true then { n with address := bitsToNat o.1.1.addr, wready := true, arready := false, st := .receiveWriteData }
    else if o.2.valid = .one ∧ d.arready = true then { n with address := bitsToNat o.2.addr, awready := false, outReq := true, st := .readWaitForUser }
    else n
  | .receiveWriteData =>
    if o.1.2.valid = .one then { d with awready := false, inData := bitsToNat o.1.2.data, st := .writeWaitForUser, inRdy := true } else { d with awready := false }
  | .writeWaitForUser =>
    if d.inAck then { d with st := .sendWriteResp, inRdy := false, bvalid := true, bresp := if d.invalidAddr then 3 else 0 } else d
  | .sendWriteResp => if d.bvalid then { d with bvalid := false, st := .idle } else d
  | .readWaitForUser =>
    if d.outRdy then { d with arready := false, rdata := d.outData, rresp := if d.invalidAddr then 3 else 0, rvalid := true, st := .sendReadData }
    else { d with arready := false }
  | .sendReadData => if d.rvalid then { d with rvalid := false, st := .idle } else d

/-- One clock edge (both always blocks read the values before the edge). -/
def DemoDev.step (d : DemoDev) (o : AxAll) : DemoDev := d.user (d.slave o)

/-- The device after a trace. -/
def DemoDev.run (d : DemoDev) (t : List (AxAll × AxIn)) : DemoDev := t.foldl (fun d q => d.step q.1) d

/-- In this trace the signals that the master does not drive are those of the device. -/
def DemoDev.Drives : DemoDev → List (AxAll × AxIn) → Prop
  | _, [] => True
  | d, q :: t => q.2 = d.pins ∧ DemoDev.Drives (d.step q.1) t

end CocotbBus
