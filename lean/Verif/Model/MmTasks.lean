import Verif.Model.MmUse

/-!
# Several tasks that use one Avalon-MM master

The tasks call `read` and `write` of one `AvalonMaster` (drivers/avalon.py:93-197), any number of tasks, each making its calls one after
the other. The lock is the one of `Driver` (drivers/__init__.py:81-100): a flag and an event.

cocotb (outside `/repo`) resumes one task at a time and lets it run until it waits again. Time goes on when no task can be resumed.
Between two rising edges there are the ReadOnly phase and the following time step. A task resumes in any order with the others:
cocotb's own order is one of these.

Simplifications: those of `Model/AvalonMM.lean` except that there are many callers; `read` with sync=True; a task that ends one call and
begins the next without waiting may be interrupted in between (in cocotb it is not).
-/

namespace CocotbBus
open Coro

/-- A coroutine as the code it still has to run: what it does up to its next wait, the wait, and what it does then. -/
inductive Prog (I O α : Type) where
  | ret (a : α)
  | raise (e : PyErr)
  | write (f : O → O) (k : Prog I O α)                                 -- write output pins
  | inp (k : I → Prog I O α)                                           -- read the input pins
  | edge (k : Prog I O α)                                              -- `await RisingEdge(clk)`
  | untilRO (test : I → Except PyErr Bool) (k : Prog I O α)            -- `await ReadOnly()`, and in each cycle again until the test is met
  | next (k : Prog I O α)                                              -- `await NextTimeStep()`

/-- `signal.value = n` for an integer, as `writeInt`. -/
def Prog.writeInt {I O α : Type} (w n : Nat) (f : LogicArray → O → O) (k : Prog I O α) : Prog I O α :=
  if n < 2 ^ w then .write (f (natToBits w n)) k else .raise .overflowError

/-- The wait for waitrequest (drivers/avalon.py:127-128, 185-186; drivers/__init__.py:283-294). Simplification: the signal is looked at in
each cycle; the code waits for it to change, which it does at most once per cycle. -/
def mmWaitP {α : Type} (c : MmCfg) (k : Prog MmIn MmOut α) : Prog MmIn MmOut α :=
  if c.hasWait then .untilRO (fun i => (intOf i.waitrequest).map (· == 0)) (.next k) else k

/-- What `AvalonMaster.read` and `write` do between acquiring the lock and releasing it (drivers/avalon.py:117-153, 174-196). -/
def mmProg (c : MmCfg) : MmOp → Prog MmIn MmOut (Option LogicArray)
  | .read a =>
    .edge <| .writeInt c.addrW a (fun v o => { o with address := v }) <| .write (fun o => { o with read := .one }) <|
    .write (mmSelect c) <| mmWaitP c <| .edge <| .write (fun o => { o with read := .zero }) <| .write (mmDeselect c) <|
    .untilRO (fun i => if c.hasRdv then (intOf i.readdatavalid).map (· != 0) else .ok true) <| .inp fun i => .ret (some i.readdata)
  | .write a v =>
    .edge <| .writeInt c.addrW a (fun v o => { o with address := v }) <| .writeInt c.dataW v (fun v o => { o with writedata := v }) <|
    .write (fun o => { o with write := .one }) <| .write (mmSelect c) <| mmWaitP c <| .edge <| .write (fun o => { o with write := .zero }) <|
    .write (mmDeselect c) <| .write (fun o => { o with writedata := List.replicate c.dataW .x }) <| .ret none
  | .pause _ => .ret none

/-- The exception of a call the master cannot serve (drivers/avalon.py:111-113, 168-170). -/
def mmRefuses (c : MmCfg) : MmOp → Option PyErr
  | .read _ => if c.hasRead then none else some (.assertion "write-only")
  | .write _ _ => if c.hasWrite then none else some (.assertion "read-only")
  | .pause _ => none

/-- A task: where it is and the calls it has still to make after the one it is in. -/
inductive TaskSt where
  | idle (ops : List MmOp)                                                   -- between two calls
  | paused (n : Nat) (ops : List MmOp)                                       -- waits for `n + 1` clock edges
  | waiting (op : MmOp) (ops : List MmOp)                                    -- in `busy_event.wait()`
  | woken (op : MmOp) (ops : List MmOp)                                      -- the event was set, not resumed yet
  | ready (p : Prog MmIn MmOut (Option LogicArray)) (ops : List MmOp)        -- has the lock and can go on
  | atEdge (p : Prog MmIn MmOut (Option LogicArray)) (ops : List MmOp)       -- has the lock and waits for the clock
  | atRO (test : MmIn → Except PyErr Bool) (p : Prog MmIn MmOut (Option LogicArray)) (ops : List MmOp)
  | atNext (p : Prog MmIn MmOut (Option LogicArray)) (ops : List MmOp)
  | dead (e : PyErr)                                                         -- a call raised

/-- How the run of a task up to its next wait ends. -/
inductive Stop where
  | ret (a : Option LogicArray)
  | raise (e : PyErr)
  | edge (p : Prog MmIn MmOut (Option LogicArray))
  | ro (test : MmIn → Except PyErr Bool) (p : Prog MmIn MmOut (Option LogicArray))
  | next (p : Prog MmIn MmOut (Option LogicArray))

/-- Run a task up to its next wait. -/
def Prog.exec (phase : Phase) (prev cur : MmIn) : Prog MmIn MmOut (Option LogicArray) → MmOut → MmOut × Stop
  | .ret a, o => (o, .ret a)
  | .raise e, o => (o, .raise e)
  | .write f k, o => if phase = .ro then (o, .raise .readOnlyWrite) else k.exec phase prev cur (f o)
  | .inp k, o => (k (match phase with
    | .edge => prev
    | _ => cur)).exec phase prev cur o
  | .edge k, o => (o, .edge k)
  | .untilRO test k, o => if phase = .ro then (o, .raise .readOnlyAwait) else (o, .ro test k)
  | .next k, o => (o, .next k)

/-- The simulation with its tasks. `trace` has a record per rising edge as in `Model/Coro.lean`, `ins` the inputs of the cycles begun by
these edges. `order` are the calls in the order in which they got the lock, `reads` the values returned by reads, each with the task. -/
structure MmSys where
  phase : Phase
  out : MmOut
  prev : MmIn
  cur : MmIn
  eventSet : Bool
  tasks : List TaskSt
  trace : List (MmOut × MmIn)
  ins : List MmIn
  order : List (Nat × MmOp)
  reads : List (Nat × LogicArray)

/-- Before the first step: the tasks have their programs before them. -/
def MmSys.start (out : MmOut) (cur : MmIn) (progs : List (List MmOp)) : MmSys :=
  ⟨.mid, out, cur, cur, false, progs.map .idle, [], [], [], []⟩

/-- `busy_event.set()` resumes everybody who waits for it (drivers/__init__.py:94, 100). -/
def TaskSt.wake : TaskSt → TaskSt
  | .waiting op ops => .woken op ops
  | x => x

/-- Let task `t` run `p` up to its next wait. If that is the end of the call, release the lock (drivers/__init__.py:98-100). -/
def MmSys.resume (g : MmSys) (t : Nat) (p : Prog MmIn MmOut (Option LogicArray)) (ops : List MmOp) : MmSys :=
  match p.exec g.phase g.prev g.cur g.out with
  | (o, .ret a) =>
    { g with out := { o with busy := false }, eventSet := true, tasks := (g.tasks.map TaskSt.wake).set t (.idle ops)
             reads := g.reads ++ (a.toList.map fun d => (t, d)) }
  | (o, .raise e) => { g with out := o, tasks := g.tasks.set t (.dead e) }
  | (o, .edge k) => { g with out := o, tasks := g.tasks.set t (.atEdge k ops) }
  | (o, .ro test k) => { g with out := o, tasks := g.tasks.set t (.atRO test k ops) }
  | (o, .next k) => { g with out := o, tasks := g.tasks.set t (.atNext k ops) }

/-- Take the lock (drivers/__init__.py:95-96) and go on. -/
def MmSys.take (c : MmCfg) (g : MmSys) (t : Nat) (op : MmOp) (ops : List MmOp) : MmSys :=
  { g with out := { g.out with busy := true }, eventSet := false, order := g.order ++ [(t, op)] }.resume t (mmProg c op) ops

/-- Resume task `t`, if it can be resumed. A call begins with `_acquire_lock` (drivers/__init__.py:92-96). -/
def MmSys.run (c : MmCfg) (g : MmSys) (t : Nat) : Option MmSys :=
  match g.tasks[t]? with
  | some (.idle (.pause 0 :: ops)) => some { g with tasks := g.tasks.set t (.idle ops) }
  | some (.idle (.pause (n + 1) :: ops)) => some { g with tasks := g.tasks.set t (.paused n ops) }
  | some (.idle (op :: ops)) =>
    match mmRefuses c op with
    | some e => some { g with tasks := g.tasks.set t (.dead e) }
    | none =>
      if g.out.busy && !g.eventSet then some { g with tasks := g.tasks.set t (.waiting op ops) }
      else if g.out.busy then some { g with tasks := g.tasks.set t (.woken op ops) }
      else some (g.take c t op ops)
  | some (.woken op ops) => some (g.take c t op ops)
  | some (.ready p ops) => some (g.resume t p ops)
  | _ => none

/-- Can be resumed now. -/
def TaskSt.runnable : TaskSt → Bool
  | .idle (_ :: _) => true
  | .woken _ _ => true
  | .ready _ _ => true
  | _ => false

/-- Waits for the ReadOnly phase. -/
def TaskSt.wantsRO : TaskSt → Bool
  | .atRO _ _ _ => true
  | _ => false

/-- Waits for the next time step. -/
def TaskSt.wantsNext : TaskSt → Bool
  | .atNext _ _ => true
  | _ => false

/-- The ReadOnly phase comes: look at the inputs. -/
def TaskSt.ro (cur : MmIn) : TaskSt → TaskSt
  | .atRO test p ops =>
    match test cur with
    | .error e => .dead e
    | .ok true => .ready p ops
    | .ok false => .atEdge (.untilRO test p) ops
  | x => x

/-- The next time step comes. -/
def TaskSt.next : TaskSt → TaskSt
  | .atNext p ops => .ready p ops
  | x => x

/-- A rising edge comes. -/
def TaskSt.edge : TaskSt → TaskSt
  | .atEdge p ops => .ready p ops
  | .paused 0 ops => .idle ops
  | .paused (n + 1) ops => .paused n ops
  | x => x

/-- What happens next. -/
inductive TEv where
  | run (t : Nat)       -- task `t` is resumed
  | ro                  -- the ReadOnly phase
  | next                -- the next time step
  | edge (i : MmIn)     -- a rising edge; the inputs settle to `i` in the cycle it begins
  deriving DecidableEq, Repr

/-- One step; `none` if it is not possible now. -/
def MmSys.step (c : MmCfg) (g : MmSys) : TEv → Option MmSys
  | .run t => g.run c t
  | .ro =>
    if g.tasks.any TaskSt.runnable || g.phase == .ro then none
    else some { g with phase := .ro, tasks := g.tasks.map (TaskSt.ro g.cur) }
  | .next =>
    if g.tasks.any TaskSt.runnable || g.tasks.any TaskSt.wantsRO then none
    else some { g with phase := .mid, tasks := g.tasks.map TaskSt.next }
  | .edge i =>
    if g.tasks.any TaskSt.runnable || g.tasks.any TaskSt.wantsRO || g.tasks.any TaskSt.wantsNext then none
    else some { g with phase := .edge, prev := g.cur, cur := i, tasks := g.tasks.map TaskSt.edge
                       trace := g.trace ++ [(g.out, g.cur)], ins := g.ins ++ [i] }

/-- A sequence of steps. -/
def MmSys.steps (c : MmCfg) (g : MmSys) : List TEv → Option MmSys
  | [] => some g
  | e :: es =>
    match g.step c e with
    | none => none
    | some g' => g'.steps c es

end CocotbBus
