import Verif.Model.BitDriver
import Verif.Model.RefModel

/-!
# The flip-flop and mean examples

The devices of examples/dff/hdl/dff.v and examples/mean/hdl/mean.sv with their testbenches.
-/

namespace CocotbBus
open Spec

/-- The flip-flop (examples/dff/hdl/dff.v:30-41): its input and its output at each clock edge, given the inputs. Monitors that read the signals right
after `RisingEdge` see them as they were before the edge (examples/dff/tests/dff_cocotb.py:57-64). -/
def dffRun (q : Logic) : List Logic → List (Logic × Logic)
  | [] => []
  | d :: r => (d, q) :: dffRun d r

/-- What `BitDriver` does in the test (examples/dff/tests/dff_cocotb.py:119-131, 134-155): `start`, `n` clock edges, `stop`, one more edge; the values
of its signal at the edges. -/
def dffInputs (sig : Logic) (gen : List (Nat × Nat)) (n : Nat) : List Logic :=
  ((BitDrv.init sig (some gen)).run (.start none :: List.replicate n .edge ++ [.stop, .edge])).2

/-- What happens at one edge: the two monitors report (examples/dff/tests/dff_cocotb.py:62-64), in either order. -/
def dffReports (inFirst : Bool) (x : Logic × Logic) : List (IoOp Logic) := if inFirst then [.input x.1, .output x.2] else [.output x.2, .input x.1]

/-- `run_test` (examples/dff/tests/dff_cocotb.py:134-155): `stop` comes in the read-only phase, after the monitors have run at edge `n`; `inFirst` says which of them is first at each
edge. At the last edge both have run before the result is read: they waited for it before the test did. -/
def dffEvents (n : Nat) : Nat → (Nat → Bool) → List (Logic × Logic) → List (IoOp Logic)
  | _, _, [] => []
  | k, inFirst, x :: r => (if k = n then [.stop] else []) ++ dffReports (inFirst k) x ++ dffEvents n (k + 1) inFirst r

/-- The registers `s_sum` and `s_valid` (examples/mean/hdl/mean.sv:34-35). Simplification: no unknown bits. -/
structure MeanDev where
  sum : Nat
  valid : Bool
  deriving DecidableEq, Repr

/-- `v_sum` (examples/mean/hdl/mean.sv:30, 44-50): the sum of the inputs in `DATA_WIDTH + $clog2(BUS_WIDTH)` bits, for `2 ^ k` inputs. -/
def meanSum (dw k : Nat) (nums : List Nat) : Nat := nums.foldl (fun s x => (s + x) % 2 ^ (dw + k)) 0

/-- One clock edge (examples/mean/hdl/mean.sv:52-63). `nums` is what is on `i_data` if `i_valid` is 1. -/
def MeanDev.step (dw k : Nat) (d : MeanDev) (rst : Bool) (nums : Option (List Nat)) : MeanDev :=
  if rst then ⟨0, false⟩
  else match nums with
    | some l => ⟨meanSum dw k l, true⟩
    | none => ⟨d.sum, false⟩

/-- `o_data` (examples/mean/hdl/mean.sv:66). -/
def MeanDev.data (k : Nat) (d : MeanDev) : Nat := d.sum / 2 ^ k

/-- `StreamBusMonitor` (examples/mean/tests/test_mean.py:21-28) after a clock edge. -/
def MeanDev.report (k : Nat) (d : MeanDev) (mon : Nat) : List (SbOp Nat) := if d.valid then [.recv mon (d.data k)] else []

/-- What the test appends to the expected list when it drives its next lot of numbers (examples/mean/tests/test_mean.py:111-119). -/
def meanExpect (k ref : Nat) : List (Option (List Nat)) → List (SbOp Nat)
  | some l :: _ => [.extend ref [l.sum / 2 ^ k]]
  | _ => []

/-- The randomised test (examples/mean/tests/test_mean.py:110-124) from some point on: at each edge either numbers are on the input, or not. At an edge the
test goes on at once, with its next numbers, and the monitor reports later, in the read-only phase; at the last edge the test ends before the monitor
gets there. The test has ten lots of numbers, one after the other, and then two edges; here they are arbitrary. -/
def meanTest (dw k mon ref : Nat) : MeanDev → List (Option (List Nat)) → List (SbOp Nat)
  | _, [] => []
  | _, [_] => []
  | d, o :: o' :: r => let d' := d.step dw k false o; meanExpect k ref (o' :: r) ++ (d'.report k mon ++ meanTest dw k mon ref d' (o' :: r))

/-- The edges in reset (examples/mean/tests/test_mean.py:102-108): nothing is on the input. -/
def meanReset (dw k mon : Nat) : Nat → MeanDev → List (SbOp Nat) × MeanDev
  | 0, d => ([], d)
  | n + 1, d => let d' := d.step dw k true none; let r := meanReset dw k mon n d'; (d'.report k mon ++ r.1, r.2)

/-- The randomised test as a whole (examples/mean/tests/test_mean.py:83-124), with `n` edges in reset. -/
def meanRandomised (dw k mon ref n : Nat) (d : MeanDev) (steps : List (Option (List Nat))) : List (SbOp Nat) :=
  let r := meanReset dw k mon n d
  r.1 ++ (meanExpect k ref steps ++ meanTest dw k mon ref r.2 steps)

/-- `value_test` (examples/mean/tests/test_mean.py:31-59): numbers at one edge, none at the next, where `o_data` is read before the edge takes effect. -/
def meanValue (dw k : Nat) (d : MeanDev) (nums : List Nat) : Nat := (d.step dw k false (some nums)).data k

end CocotbBus
