import Verif.Model.Scoreboard
import Verif.Spec.Online

/-!
# A reference model

The way the examples use a scoreboard: the callback of a monitor at the input of the device computes the expected output.
-/

namespace CocotbBus
open Spec

/-- `EndianSwapperTB.model`, `DFF_TB.model` (examples/endian_swapper/tests/test_endian_swapper.py:182-185,
examples/dff/tests/dff_cocotb.py:105-117), with an arbitrary function of the transaction. `stopped` is the attribute of that name,
which only the flip-flop testbench has. -/
def refModel {T : Type} (ref : Nat) (f : T → T) (stopped : Bool) : Callback T (SB T) := fun t sb =>
  if !stopped then (sb.setList ref (sb.heap ref ++ [f t]), none) else (sb, none)

/-- The testbench (examples/endian_swapper/tests/test_endian_swapper.py:150-176, examples/dff/tests/dff_cocotb.py:76-103): the monitor
of the output is on the scoreboard, with an expected list that the model extends. The examples use no
`reorder_depth`. -/
def refBench {T : Type} (ops : TxnOps T) (imm : Bool) (heap : Nat → List T) (inMon outMon ref : Nat) (info : MonInfo) (strict : Bool) (f : T → T)
    (depth : Int := 0) : World T :=
  let w := ((World.new imm heap).addInterface ops outMon info (.list ref) .none depth strict).1
  w.setMon inMon ((w.mons inMon).addCallback (refModel ref f false))

/-- The test goes on. `DFF_TB.stop` (examples/dff/tests/dff_cocotb.py:123-131) sets an attribute that the callback reads; here the
callback is replaced by one for the new value. -/
def playIo {T : Type} (inMon outMon ref : Nat) (f : T → T) : List (IoOp T) → World T → World T
  | [], w => w
  | .input t :: r, w => playIo inMon outMon ref f r (w.receive inMon t).1
  | .output t :: r, w => playIo inMon outMon ref f r (w.receive outMon t).1
  | .stop :: r, w => playIo inMon outMon ref f r (w.setMon inMon { w.mons inMon with callbacks := [refModel ref f true] })

end CocotbBus
