import Verif.Model.AxiUse
import Verif.Model.QueueBus

/-!
# An AXI4 master used by any number of tasks

Many tasks call `read` and `write` of one `AXI4Master` or `AXI4LiteMaster` (drivers/amba.py:316-684) at any time, also while earlier
calls are still waiting. Five locks (drivers/amba.py:143-147) make the calls take turns: one for the address of a write, one for its
data, one for its response, one for the address of a read and one for its data. A lock of cocotb is handed over in the order in which
it was asked for.
-/

namespace CocotbBus
open Coro

variable {I O α β : Type}

/-- A moment: the number of cycles after the current one, and where in the current one. -/
abbrev Moment := Nat × Phase

/-- The order of the phases of a cycle. -/
def Phase.rank : Phase → Nat
  | .edge => 0
  | .ro => 1
  | .mid => 2

/-- The later one of two moments. -/
def laterOf (t t' : Moment) : Moment := if t'.1 < t.1 ∨ (t'.1 = t.1 ∧ t.2.rank < t'.2.rank) then t' else t

/-- Doing nothing until a moment, which may be over. -/
def waitUntil (t : Moment) : M I O Unit := do
  let m ← now
  edges (m.1 - t.1)
  let m ← now
  when (m.1 = t.1 ∧ m.2.rank < t.2.rank) (resumeIn t.2)

/-- What a task got from a part of a call, and when. -/
abbrev Got (β : Type) := Except PyErr β × Moment

/-- `async with lock: ...` in several tasks (drivers/amba.py:205, 285, 381, 487, 512): each asks for the lock at a moment, in this order.
The signals belong to the lock. An exception ends only the task in which it is raised, and the lock is released. -/
def locked (body : α → M I O β) : List (α × Moment) → Sim I O → List (Got β) × Res I O Unit
  | [], s => ([], [], .ok () s)
  | (x, t) :: l, s =>
    match (waitUntil t >>= fun _ => body x) s with
    | (u, .ok b s') =>
      let r := locked body l s'
      ((.ok b, (s'.rest.length, s'.phase)) :: r.1, u ++ r.2.1, r.2.2)
    | (u, .err e s') =>
      let r := locked body l s'
      ((.error e, (s'.rest.length, s'.phase)) :: r.1, u ++ r.2.1, r.2.2)
    | (u, .blocked s') => ([], u, .blocked s')

/-- The records of signals until the end of the simulation: they keep their last values when all tasks are through. -/
def records (r : Res I O α) : List (O × I) :=
  r.1 ++ (r.2.sim.cur :: r.2.sim.rest).dropLast.map (fun i => (r.2.sim.out, i))

/-- `await Combine(...)` of two tasks that have ended (drivers/amba.py:379). If one has raised so does the `await`; simplification as in `combine`: it
is reported when the other one has ended as well. -/
def joinOutcome (x y : Got Unit) : Got Unit :=
  match x.1, y.1 with
  | .error e, _ => (.error e, laterOf x.2 y.2)
  | .ok _, .error e => (.error e, laterOf x.2 y.2)
  | .ok _, .ok _ => (.ok (), laterOf x.2 y.2)

/-- The calls that go on after their first part, and when (drivers/amba.py:381, 512). -/
def goOn : List α → List (Got Unit) → List (α × Moment)
  | x :: l, (.ok _, t) :: r => (x, t) :: goOn l r
  | _ :: l, (.error _, _) :: r => goOn l r
  | _, _ => []

/-- What the calls got that are through with their first part: an exception from that part, or the outcome of the second one (`none`: it is
waiting; drivers/amba.py:381-406, 512-583). -/
def bothParts : List (Got Unit) → List (Got β) → List (Option (Got β))
  | (.error e, t) :: l, r => some (.error e, t) :: bothParts l r
  | (.ok _, _) :: l, y :: r => some y :: bothParts l r
  | (.ok _, _) :: l, [] => none :: bothParts l []
  | [], _ => []

/-- The address of a write (drivers/amba.py:363-373, 195-232; `AXI4LiteMaster`: 614-659). Simplification: a call that does not pass the
checks raises when its turn comes and not at once; it drives nothing. -/
def awJob (c : AxCfg) : AxOp → M AxIn AddrOut Unit
  | .write a v size burst _ al _ sync => do
    let sz ← ofExcept (axiChecks c a v.length size burst)
    sendWriteAddress c a v.length burst sz al sync
  | .liteWrite a _ _ al _ sync => do
    let sz ← ofExcept (axiChecks c a 1 none .incr)
    sendWriteAddress c a 1 .incr sz al sync
  | _ => pure ()

/-- The data of a write (drivers/amba.py:363-369, 375-377, 234-314; `AXI4LiteMaster`: 614-659). -/
def wJob (c : AxCfg) : AxOp → M AxIn WOut Unit
  | .write a v size burst be _ dl sync => do
    let sz ← ofExcept (axiChecks c a v.length size burst)
    sendWriteData c a v burst sz dl be sync
  | .liteWrite a v be _ dl sync => do
    let sz ← ofExcept (axiChecks c a 1 none .incr)
    sendWriteData c a [v] .incr sz dl [be] sync
  | _ => pure ()

/-- The response to a write (drivers/amba.py:381-406). -/
def bJob : AxOp → M AxIn Unit Unit := fun _ => do
  let result ← bLoop
  awaitEdge
  when (result ≠ 0) (raise (.axiProtocol result))

/-- The address of a read (drivers/amba.py:476-510; `AXI4LiteMaster`: 661-684). -/
def arJob (c : AxCfg) : AxOp → M AxIn AddrOut Unit
  | .read a len size burst sync => do
    let sz ← ofExcept (axiChecks c a len size burst)
    sendReadAddress c a len.toNat burst sz sync
  | .liteRead a sync => do
    let sz ← ofExcept (axiChecks c a 1 none .incr)
    sendReadAddress c a 1 .incr sz sync
  | _ => pure ()

/-- The data of a read and what is made of it (drivers/amba.py:484-485, 512-583). `return_rresp` has its default value. -/
def axiReadData (c : AxCfg) (address length size : Nat) (burst : AxiBurst) : M AxIn AddrOut (List LogicArray ⊕ List (LogicArray × Nat)) := do
  let st ← loop (rBody c size burst) ⟨[], [], address % c.dataBytes / size * size⟩
  awaitEdge
  ofExcept (axiFinish address length size burst false st)

/-- The same for a call (drivers/amba.py:512-583; `AXI4LiteMaster`: 661-684). -/
def rJob (c : AxCfg) : AxOp → M AxIn AddrOut (List LogicArray)
  | .read a len size burst _ => do
    let sz ← ofExcept (axiChecks c a len size burst)
    let d ← axiReadData c a len.toNat sz burst
    pure (d.elim id (fun l => l.map Prod.fst))
  | .liteRead a _ => do
    let sz ← ofExcept (axiChecks c a 1 none .incr)
    let d ← axiReadData c a 1 sz .incr
    let d ← liteFirst d
    pure [d]
  | _ => pure []

/-- What the calls of `write` and `read` got, in the order of the calls, and the records of all signals until the end of the simulation. -/
structure AxMany where
  writes : List (Option (Got Unit))
  reads : List (Option (Got (List LogicArray)))
  trace : List (AxAll × AxIn)

/-- Calls of `write` and `read` with the moments at which they are made, in the order of the calls (drivers/amba.py:143-147, 316-684). The
tasks started by `write` (drivers/amba.py:379) ask for their locks at once. -/
def axMany (c : AxCfg) (wcalls rcalls : List (AxOp × Moment)) (s : Sim AxIn AxAll) : AxMany :=
  let aw := locked (awJob c) wcalls ⟨s.phase, s.out.1.1, s.prev, s.cur, s.rest⟩
  let w := locked (wJob c) wcalls ⟨s.phase, s.out.1.2, s.prev, s.cur, s.rest⟩
  let sent := List.zipWith joinOutcome aw.1 w.1
  let b := locked bJob (goOn (wcalls.map Prod.fst) sent) ⟨s.phase, (), s.prev, s.cur, s.rest⟩
  let ar := locked (arJob c) rcalls ⟨s.phase, s.out.2, s.prev, s.cur, s.rest⟩
  let r := locked (rJob c) (goOn (rcalls.map Prod.fst) ar.1) ⟨s.phase, s.out.2, s.prev, s.cur, s.rest⟩
  { writes := bothParts sent b.1
    reads := bothParts ar.1 r.1
    trace := List.zipWith (fun q p => ((q.1, p.1), q.2)) (List.zipWith (fun q p => ((q.1, p.1), q.2)) (records aw.2) (records w.2)) (records ar.2) }

end CocotbBus
