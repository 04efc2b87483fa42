import Verif.Model.PktsReconf
import Verif.Model.RefModel

/-!
# The endian swapper example

The device of examples/endian_swapper/hdl/endian_swapper.sv, and the coroutine of the testbench that sets the byte order of the monitor at its
output (examples/endian_swapper/tests/test_endian_swapper.py:130-147).
-/

namespace CocotbBus
open Spec

/-- Verilog `&` of single bits. -/
def vAnd (a b : Logic) : Logic := if a = .zero ∨ b = .zero then .zero else if a = .one ∧ b = .one then .one else .x

/-- Verilog `|` of single bits. -/
def vOr (a b : Logic) : Logic := if a = .one ∨ b = .one then .one else if a = .zero ∧ b = .zero then .zero else .x

/-- Verilog `~` and `!` of a single bit. -/
def vNot : Logic → Logic
  | .zero => .one
  | .one => .zero
  | _ => .x

/-- `byteswap` (examples/endian_swapper/hdl/endian_swapper.sv:80-98): the bytes in the opposite order. The source has this for 8 bytes only. -/
def byteswap (v : LogicArray) : LogicArray := if v.length ≤ 8 then v else byteswap (v.drop 8) ++ v.take 8
termination_by v.length
decreasing_by simp_all; omega

/-- The registers of the device (examples/endian_swapper/hdl/endian_swapper.sv:62-66 and 101-104). -/
structure SwapDev where
  flush : Logic
  inPacket : Logic
  swapping : Logic
  count : Nat
  sop : Logic
  eop : Logic
  data : LogicArray
  empty : LogicArray
  deriving DecidableEq, Repr

/-- After reset (examples/endian_swapper/hdl/endian_swapper.sv:108-114 and 160-161): the data and empty registers are not reset. -/
def SwapDev.reset (data empty : LogicArray) : SwapDev :=
  { flush := .zero, inPacket := .zero, swapping := .zero, count := 0, sop := .one, eop := .one, data := data, empty := empty }

/-- `stream_out_valid` (examples/endian_swapper/hdl/endian_swapper.sv:144-145), from the registers and `stream_in_valid`. -/
def SwapDev.outValid (d : SwapDev) (o : PkOut) : Logic := vOr (vAnd o.valid (vNot d.eop)) d.flush

/-- The output stream as seen at a clock edge. The device has no channel. -/
def SwapDev.output (d : SwapDev) (o : PkOut) : PkOut :=
  { valid := d.outValid o, sop := d.sop, eop := d.eop, data := d.data, empty := d.empty, channel := [] }

/-- `csr_waitrequest` out of reset (examples/endian_swapper/hdl/endian_swapper.sv:150-151). -/
def SwapDev.waitrequest (d : SwapDev) (o : PkOut) : Logic := vOr (vOr d.inPacket (vAnd o.sop o.valid)) d.flush

/-- One clock edge out of reset (examples/endian_swapper/hdl/endian_swapper.sv:115-141 and 163-176). `stream_in_ready` is `stream_out_ready`
(lines 155-156). `csr`: a write of this bit to register 0 is requested (`csr_write` high, `csr_read` low). Reads of the registers, which change
nothing here, are left out. -/
def SwapDev.step (d : SwapDev) (o : PkOut) (ready : Logic) (csr : Option Bool) : SwapDev :=
  let flushed := vAnd (vAnd o.eop o.valid) ready
  let take := vAnd ready o.valid = .one
  { flush := if vAnd d.flush ready = .one then flushed else if vNot d.flush = .one then flushed else d.flush
    inPacket := if take then
        if vAnd o.eop o.valid = .one then .zero else if vAnd o.sop o.valid = .one then .one else d.inPacket
      else d.inPacket
    swapping := match csr with
      | some b => if vNot (d.waitrequest o) = .one then Logic.ofBool b else d.swapping
      | none => d.swapping
    count := if take ∧ vAnd o.sop o.valid = .one then (d.count + 1) % 2 ^ 32 else d.count
    sop := if take then o.sop else d.sop
    eop := if take then o.eop else d.eop
    data := if take then if vNot d.swapping = .one then o.data else byteswap o.data else d.data
    empty := if take then o.empty else d.empty }

/-- `stream_out_config_setter` (examples/endian_swapper/tests/test_endian_swapper.py:130-147): what `firstSymbolInHighOrderBits` of the output
monitor is once the signals have settled after a clock edge. `prev` and `sop` are the settled values of `stream_in_startofpacket` before and after
that edge (the driver changes it once, right after the edge, so these are also the values sampled at the edge and at the one after). -/
def setterOrder (inOrder : Bool) (prev sop swapping : Logic) (order : Bool) : Bool :=
  if prev ≠ .one ∧ sop = .one then if swapping = .one then !inOrder else inOrder else order

/-- The device and the setter on the trace of the input stream: for every edge the output stream, and the configuration that the
output monitor finds there. `csr k`: the write requested on the control bus at edge `k`. -/
def swapRun (inOrder : Bool) (out : PkCfg) : SwapDev → Logic → Bool → (Nat → Option Bool) → List (PkOut × PkIn) → List (PkCfg × (PkOut × PkIn))
  | _, _, _, _, [] => []
  | d, prev, order, csr, (o, i) :: t =>
    let order := setterOrder inOrder prev o.sop d.swapping order
    ({ out with highFirst := order }, (d.output o, i)) ::
      swapRun inOrder out (d.step o i.ready (csr 0)) o.sop order (fun k => csr (k + 1)) t

/-- The registers after such a trace. -/
def swapAfter : SwapDev → (Nat → Option Bool) → List (PkOut × PkIn) → SwapDev
  | d, _, [] => d
  | d, csr, (o, i) :: t => swapAfter (d.step o i.ready (csr 0)) (fun k => csr (k + 1)) t

/-- What a monitor (monitors/avalon.py:140-252, as `pkMonitorDyn`) reports at each edge of a trace; nothing after an exception. -/
def pkEdges : List (PkCfg × (PkOut × PkIn)) → PkState → List (Option PkReport)
  | [], _ => []
  | (c, o, i) :: r, st =>
    match pkStep c st o i with
    | .error _ => none :: r.map (fun _ => none)
    | .ok (st, rep) => rep :: pkEdges r st

/-- The transactions of one edge: `stream_in_recovered`, with the callback `model`, and `stream_out`, with the scoreboard
(examples/endian_swapper/tests/test_endian_swapper.py:167-185), each deliver what they have. Which of the two coroutines runs first is the
scheduler's choice: `first` says whether the one at the input does. -/
def benchEdge (first : Bool) (a b : Option PkReport) : List (IoOp PkReport) :=
  if first then a.toList.map .input ++ b.toList.map .output else b.toList.map .output ++ a.toList.map .input

/-- The transactions of a whole run, from the reports of the two monitors edge by edge. -/
def benchOps (first : Nat → Bool) : List (Option PkReport) → List (Option PkReport) → List (IoOp PkReport)
  | a :: as, b :: bs => benchEdge (first 0) a b ++ benchOps (fun k => first (k + 1)) as bs
  | _, _ => []

/-- The test (examples/endian_swapper/tests/test_endian_swapper.py:197-239) on the trace of the input stream: what the two monitors deliver. -/
def swapTest (c : PkCfg) (data empty : LogicArray) (prev : Logic) (order : Bool) (csr : Nat → Option Bool) (first : Nat → Bool)
    (t : List (PkOut × PkIn)) : List (IoOp PkReport) :=
  benchOps first (pkEdges (t.map (fun r => (c, r))) {}) (pkEdges (swapRun c.highFirst c (.reset data empty) prev order csr t) {})

end CocotbBus
