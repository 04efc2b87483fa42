import Verif.Model.DriverBase

/-!
# `BitDriver` used over time: `drivers/__init__.py:20-68`

`Model/DriverBase.lean` has one run of `_cr_twiddler`; here `start` and `stop` may be called at any time, so that there may be several
runs. They share the signal and `self._generator`. An execution is a list of operations. Simplifications: generators are finite lists
(see `Model/DriverBase.lean`), and a generator given to one call of `start` is not used elsewhere.
-/

namespace CocotbBus

/-- A coroutine `_cr_twiddler` (drivers/__init__.py:52-68). -/
inductive BitTask where
  | new (given : Option (List (Nat × Nat)))  -- made by `start_soon` (line 46), has not run yet
  | high (n off : Nat)                       -- waiting for edge `n` (counting down to 1) in `range(on)` (lines 64-65)
  | low (n : Nat)                            -- the same in `range(off)` (lines 67-68)
  | ended                                    -- killed, or ended by an exception
  deriving DecidableEq, Repr

/-- The signal, `self._generator` and all coroutines started so far; `self._cr` is the last of them. -/
structure BitDrv where
  signal : Logic
  gen : Option (List (Nat × Nat))
  tasks : List BitTask
  deriving DecidableEq, Repr

/-- `BitDriver.__init__` (drivers/__init__.py:25-29). -/
def BitDrv.init (signal : Logic) (gen : Option (List (Nat × Nat))) : BitDrv := ⟨signal, gen, []⟩

/-- `while True` from its top to the next `await` (drivers/__init__.py:61-68): the signal, the rest of the generator, and where the
coroutine is. Both loops may have no iterations. An exhausted generator ends the coroutine with an exception. -/
def bitTop : List (Nat × Nat) → Logic → Logic × List (Nat × Nat) × BitTask
  | [], sig => (sig, [], .ended)
  | (on, off) :: r, _ =>
    if on > 0 then (.one, r, .high on off)
    else if off > 0 then (.zero, r, .low off)
    else bitTop r .zero

/-- The loop of a coroutine that has a generator. -/
def bitLoop (sig : Logic) (gen : Option (List (Nat × Nat))) : Logic × Option (List (Nat × Nat)) × BitTask :=
  match gen with
  | none => (sig, none, .ended)
  | some g => let (s, g', t) := bitTop g sig; (s, some g', t)

/-- A coroutine that has not run yet begins (drivers/__init__.py:52-57); without any generator it ends with an exception. -/
def bitBegin (sig : Logic) (gen : Option (List (Nat × Nat))) : BitTask → Logic × Option (List (Nat × Nat)) × BitTask
  | .new (some g) => bitLoop sig (some g)
  | .new none => bitLoop sig gen
  | t => (sig, gen, t)

/-- A coroutine resumes at a clock edge (drivers/__init__.py:61-68). -/
def bitResume (sig : Logic) (gen : Option (List (Nat × Nat))) : BitTask → Logic × Option (List (Nat × Nat)) × BitTask
  | .high n off =>
    if n > 1 then (sig, gen, .high (n - 1) off)
    else if off > 0 then (.zero, gen, .low off)
    else bitLoop .zero gen
  | .low n => if n > 1 then (sig, gen, .low (n - 1)) else bitLoop sig gen
  | t => (sig, gen, t)

/-- All coroutines in turn, in the order in which they were started. -/
def bitEach (f : Logic → Option (List (Nat × Nat)) → BitTask → Logic × Option (List (Nat × Nat)) × BitTask) :
    List BitTask → Logic → Option (List (Nat × Nat)) → BitDrv
  | [], sig, gen => ⟨sig, gen, []⟩
  | t :: r, sig, gen =>
    let (sig, gen, t) := f sig gen t
    let d := bitEach f r sig gen
    { d with tasks := t :: d.tasks }

/-- Operations. -/
inductive BitOp where
  | start (generator : Option (List (Nat × Nat)))  -- lines 31-46
  | stop                                           -- lines 48-50
  | run                                            -- the scheduler runs what has been started
  | edge                                           -- a rising edge of the clock
  deriving DecidableEq, Repr

/-- The scheduler runs the coroutines that have not run yet. -/
def BitDrv.begin (d : BitDrv) : BitDrv := bitEach bitBegin d.tasks d.signal d.gen

/-- One operation, and whether it raised. What has been started runs before the next clock edge. `stop` kills only `self._cr`. -/
def BitDrv.step (d : BitDrv) : BitOp → BitDrv × Option PyErr
  | .start g => ({ d with tasks := d.tasks ++ [.new g] }, none)
  | .stop => if d.tasks = [] then (d, some .attributeError) else ({ d with tasks := d.tasks.dropLast ++ [.ended] }, none)
  | .run => (d.begin, none)
  | .edge => let d := d.begin; (bitEach bitResume d.tasks d.signal d.gen, none)

/-- The value seen by the design at a clock edge. -/
def BitDrv.sampled (d : BitDrv) : Logic := d.begin.signal

/-- A history of operations: the state after it and the values of the signal at its clock edges. -/
def BitDrv.run (d : BitDrv) : List BitOp → BitDrv × List Logic
  | [] => (d, [])
  | o :: r =>
    let d' := (d.step o).1
    let (e, l) := d'.run r
    (e, match o with
      | .edge => d.sampled :: l
      | _ => l)

end CocotbBus
