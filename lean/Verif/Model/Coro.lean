import Verif.Model.Base

/-!
# Coroutines that talk to the pins

Model of the part of cocotb a bus coroutine uses (outside `/repo`): `RisingEdge(clk)`, `ReadOnly`,
`NextTimeStep`, `FallingEdge(clk)`, reading and writing signals.

* `O` are the values the coroutine drives, `I` the values the rest of the design drives. The design is
  arbitrary: its values are a list with one settled value per clock cycle.
* One record `(out, inp)` is emitted per rising edge: the values just before that edge, i.e. what
  synchronous logic samples at it.
* After `RisingEdge` a read gives the value just before the edge (`prev`); after `ReadOnly`,
  `NextTimeStep` or `FallingEdge` the value settled in the new cycle (`cur`).
* Writing in the ReadOnly phase raises.
* `blocked`: the coroutine is waiting and the list of cycles is exhausted (or it is in an endless loop
  that consumes no time). Theorems about all schedules thus cover every prefix of an execution.
-/

namespace CocotbBus

/-- Where in the time step the coroutine is. -/
inductive Phase where
  | edge   -- just after a rising edge
  | ro     -- ReadOnly
  | mid    -- later in the cycle (NextTimeStep, FallingEdge), or before the first edge
  deriving DecidableEq, Repr

/-- The simulation as seen by one coroutine. -/
structure Sim (I O : Type) where
  phase : Phase
  out : O
  prev : I
  cur : I
  rest : List I
  deriving DecidableEq, Repr

/-- How a coroutine (part) ends. -/
inductive End (I O α : Type) where
  | ok (a : α) (s : Sim I O)
  | err (e : PyErr) (s : Sim I O)
  | blocked (s : Sim I O)
  deriving DecidableEq, Repr

/-- The records emitted and the end. -/
abbrev Res (I O α : Type) := List (O × I) × End I O α

/-- A coroutine. -/
def M (I O α : Type) := Sim I O → Res I O α

variable {I O α β : Type}

/-- Sequential composition of a result with a continuation. -/
def Res.andThen (r : Res I O α) (f : α → M I O β) : Res I O β :=
  match r with
  | (t, .ok a s) =>
    match f a s with
    | (t', e) => (t ++ t', e)
  | (t, .err e s) => (t, .err e s)
  | (t, .blocked s) => (t, .blocked s)

instance : Monad (M I O) where
  pure a := fun s => ([], .ok a s)
  bind x f := fun s => (x s).andThen f

namespace Coro

/-- `raise e`. -/
def raise (e : PyErr) : M I O α := fun s => ([], .err e s)

/-- `await RisingEdge(clk)`. -/
def awaitEdge : M I O Unit := fun s =>
  match s.rest with
  | [] => ([], .blocked s)
  | i :: r => ([(s.out, s.cur)], .ok () { s with phase := .edge, prev := s.cur, cur := i, rest := r })

/-- `await ReadOnly()`. In cocotb 2.x awaiting it in the ReadOnly phase raises (`strict`), in 1.x it does not. -/
def readOnly (strict : Bool := true) : M I O Unit := fun s =>
  if strict ∧ s.phase = .ro then ([], .err .readOnlyAwait s) else ([], .ok () { s with phase := .ro })

/-- `await NextTimeStep()` / `await FallingEdge(clk)`. -/
def nextStep : M I O Unit := fun s => ([], .ok () { s with phase := .mid })

/-- Read the input pins. -/
def inp : M I O I := fun s => ([], .ok (match s.phase with
  | .edge => s.prev
  | _ => s.cur) s)

/-- Write output pins. -/
def write (f : O → O) : M I O Unit := fun s =>
  if s.phase = .ro then ([], .err .readOnlyWrite s) else ([], .ok () { s with out := f s.out })

/-- Change of Python state kept beside the driven values (a lock): not a signal, so allowed in every phase. -/
def setPy (f : O → O) : M I O Unit := fun s => ([], .ok () { s with out := f s.out })

/-- Read the driven values and the Python state kept beside them. -/
def getOut : M I O O := fun s => ([], .ok s.out s)

/-- Wait for ever. -/
def hang : M I O α := fun s => ([], .blocked s)

/-- `for _ in range(n): await edge`. -/
def edges : Nat → M I O Unit
  | 0 => pure ()
  | n + 1 => do awaitEdge; edges n

/-- `if b: ...`. -/
def when (b : Bool) (x : M I O Unit) : M I O Unit := if b then x else pure ()

/-- Lift a computation that may raise. -/
def ofExcept (x : Except PyErr α) : M I O α := fun s =>
  match x with
  | .ok a => ([], .ok a s)
  | .error e => ([], .err e s)

/-- A loop with at most `n` iterations: the body returns `.inl` to go on, `.inr` to leave. -/
def iter (body : β → M I O (β ⊕ α)) : Nat → β → M I O α
  | 0, _ => fun s => ([], .blocked s)
  | n + 1, b => do
    match ← body b with
    | .inl b' => iter body n b'
    | .inr a => pure a

/-- `while` loop. Every iteration of the loops of interest waits for a clock edge, so one more
iteration than there are cycles left is enough; an iteration that consumes no time for ever hangs (`blocked`). -/
def loop (body : β → M I O (β ⊕ α)) (b : β) : M I O α := fun s => iter body (s.rest.length + 1) b s

/-- The recurring pattern `await ReadOnly()`; `while not p: await RisingEdge(clk); await ReadOnly()`
(drivers/avalon.py:536-546 and 669-679, drivers/amba.py). `test` may raise. -/
def waitRO (test : I → Except PyErr Bool) : M I O Unit := do
  readOnly
  loop (fun (_ : Unit) => do
    let i ← inp
    if ← ofExcept (test i) then pure (.inr ())
    else do
      awaitEdge
      readOnly
      pure (.inl ())) ()

/-- `await Edge(signal)`: until the settled value of the signal differs from the current one. Simplification: a signal
changes at most once per clock cycle, so the trigger is at the first cycle with another value. -/
def awaitChange (f : I → Logic) : M I O Unit := do
  let i ← inp
  loop (fun (_ : Unit) => do
    awaitEdge
    nextStep
    let j ← inp
    pure (if f j = f i then .inl () else .inr ())) ()

/-- `int(signal.value)` of a one-bit signal. -/
def intOf (l : Logic) : Except PyErr Nat :=
  match l with
  | .zero => .ok 0
  | .one => .ok 1
  | _ => .error .valueError

/-- `BusDriver._wait_for_nsignal` (drivers/__init__.py:283-294). -/
def waitN (f : I → Logic) : M I O Unit := do
  readOnly
  loop (fun (_ : Unit) => do
    let i ← inp
    if (← ofExcept (intOf (f i))) = 0 then pure (.inr ())
    else do
      awaitChange f
      readOnly
      pure (.inl ())) ()
  nextStep

end Coro

/-- Returned normally? -/
def End.isOk : End I O α → Bool
  | .ok _ _ => true
  | _ => false

/-- Simulation state at the end. -/
def End.sim : End I O α → Sim I O
  | .ok _ s => s
  | .err _ s => s
  | .blocked s => s

end CocotbBus
