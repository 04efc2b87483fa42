import Verif.Model.AxiDemo
import Verif.Spec.AxiUse

/-! # Two registers at addresses 0 and 4, and what a test should read from them -/

namespace CocotbBus.Spec

/-- The two registers. -/
structure Regs where
  r0 : Nat
  r4 : Nat
  deriving DecidableEq, Repr

/-- The outcome of a call: a read of an existing register returns its 32 bits; addresses above 4 are refused with DECERR (3). -/
def Regs.outcome (r : Regs) : AxOp → Except PyErr (List LogicArray)
  | .liteRead a _ => if a > 4 then .error (.axiProtocol 3) else .ok [natToBits 32 (if a = 0 then r.r0 else r.r4)]
  | .liteWrite a _ _ _ _ _ => if a > 4 then .error (.axiProtocol 3) else .ok []
  | _ => .ok []

/-- The registers after a call. Byte enables make no difference to this device. -/
def Regs.after (r : Regs) : AxOp → Regs
  | .liteWrite a v _ _ _ _ => if a = 0 then { r with r0 := v % 2 ^ 32 } else if a = 4 then { r with r4 := v % 2 ^ 32 } else r
  | _ => r

/-- The outcomes of a sequence of calls. -/
def Regs.outcomes : Regs → List AxOp → List (Except PyErr (List LogicArray))
  | _, [] => []
  | r, op :: ops => r.outcome op :: Regs.outcomes (r.after op) ops

/-- The registers after a sequence of calls. -/
def Regs.final (r : Regs) (ops : List AxOp) : Regs := ops.foldl Regs.after r

/-- A call of an AXI4-Lite master to an address that is a register or above all of them (not 1, 2 or 3), or a pause. -/
def RegOp : AxOp → Prop
  | .liteRead a _ => a < 2 ^ 32 ∧ (a = 0 ∨ 4 ≤ a)
  | .liteWrite a _ _ _ _ _ => a < 2 ^ 32 ∧ (a = 0 ∨ 4 ≤ a)
  | .pause _ => True
  | _ => False

/-- No write puts its data on the bus right at the edge at which the write before it ended: one that follows another immediately has
`sync` (the default) or a data latency. `hot`: a write has just ended. -/
def Spaced : Bool → List AxOp → Prop
  | _, [] => True
  | hot, .liteWrite _ _ _ _ dl sync :: ops => (hot = true → sync = true ∨ 0 < dl) ∧ Spaced true ops
  | hot, .pause n :: ops => Spaced (hot && n == 0) ops
  | _, _ :: ops => Spaced false ops

/-- The clock edges that a call needs at most. -/
def regCost : AxOp → Nat
  | .liteRead _ sync => (if sync then 1 else 0) + 5
  | .liteWrite _ _ _ al dl sync => (if sync then 1 else 0) + max (al + 3) (dl + 1) + 3
  | .pause n => n
  | _ => 0

/-- All clock edges of a simulation: those up to the end of the program, and those after it, where its signals stay as they are. -/
def wholeRun {I O α : Type} (r : Res I O α) : List (O × I) := r.1 ++ (r.2.sim.cur :: r.2.sim.rest).map (fun i => (r.2.sim.out, i))

end CocotbBus.Spec
