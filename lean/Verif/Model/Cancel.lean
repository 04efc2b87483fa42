import Verif.Model.Coro

/-!
# Cancelling a coroutine

`Driver.kill` (drivers/__init__.py:102-106) and `Monitor.kill` (monitors/__init__.py:76-80) kill a task, and a test gives up an
operation with `with_timeout(driver.read(...), ...)` or `task.cancel()` (cocotb, outside `/repo`). Nothing in the modelled code
has a `finally` or catches the cancellation, so the coroutine just stops where it is waiting and its signals keep their values.
(The `async with lock` of drivers/amba.py does release the lock.)
-/

namespace CocotbBus
open Coro
variable {I O α : Type}

/-- The simulation goes on after the cycles given to a coroutine: `r` are the cycles after them. -/
def Sim.extend (s : Sim I O) (r : List I) : Sim I O := { s with rest := s.rest ++ r }

/-- A task runs `x` and is cancelled later in the cycle that begins `n` clock edges after its start, unless it has ended by then
(drivers/__init__.py:102-106). What `x` does before it is cancelled depends on the first `n` of the remaining cycles only, so it is
run on those. Should `x` be waiting for something that never comes, the clock goes on without it. If there are less than `n` cycles
left, it is not cancelled in this execution. Simplification: cancelling it before it resumes after an edge is the same as cancelling
it in the cycle before that edge. -/
def cancelAfter (n : Nat) (x : M I O α) : M I O Unit := fun s =>
  if n ≤ s.rest.length then
    match x { s with rest := s.rest.take n } with
    | (t, .ok _ s') => (t, .ok () (s'.extend (s.rest.drop n)))
    | (t, .err e s') => (t, .err e (s'.extend (s.rest.drop n)))
    | (t, .blocked s') => Res.andThen (t, .ok () (s'.extend (s.rest.drop n))) (fun (_ : Unit) => do
      edges s'.rest.length
      nextStep)
  else (x >>= fun _ => pure ()) s

end CocotbBus
