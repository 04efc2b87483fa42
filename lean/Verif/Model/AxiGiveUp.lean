import Verif.Model.AxiMany

/-!
# AXI writes given up by their callers

A task that waits in `write` of an `AXI4Master` or `AXI4LiteMaster` may be cancelled, for example by `with_timeout`. The tasks that send the
address and the data have been started with `start_soon` (drivers/amba.py:379) and go on; the caller no longer waits for the response
(drivers/amba.py:381-406).
-/

namespace CocotbBus
open Coro

variable {I O α β : Type}

/-- One moment is not after another one. -/
def Moment.notAfter (t t' : Moment) : Prop := t'.1 < t.1 ∨ (t'.1 = t.1 ∧ t.2.rank ≤ t'.2.rank)

instance (t t' : Moment) : Decidable (t.notAfter t') := inferInstanceAs (Decidable (_ ∨ _))

/-- Something that ends at `t` is not given up before. -/
def inTime : Option Moment → Moment → Prop
  | none, _ => True
  | some q, t => t.notAfter q

instance : (q : Option Moment) → (t : Moment) → Decidable (inTime q t)
  | none, _ => inferInstanceAs (Decidable True)
  | some q, t => inferInstanceAs (Decidable (t.notAfter q))

/-- When the lock is free again after a task that asked for it at `t` has been given up at `q`: at once if it had the lock, which is released by
`async with`; a task that had not got the lock by then has not held it. -/
def freeAt (t q : Moment) (s : Sim I O) : Sim I O := if t.notAfter q then (waitUntil q s).2.sim else s

/-- `async with lock: ...` in several tasks (drivers/amba.py:381), each of which may be given up at some moment: what they get, `none` for one that was
given up before or still waits at the end. -/
def lockedUntil (body : α → M I O β) : List (α × Moment × Option Moment) → Sim I O → List (Option (Got β))
  | [], _ => []
  | (x, t, q) :: l, s =>
    match ((waitUntil t >>= fun _ => body x) s).2, q with
    | .ok b s', none => some (.ok b, (s'.rest.length, s'.phase)) :: lockedUntil body l s'
    | .err e s', none => some (.error e, (s'.rest.length, s'.phase)) :: lockedUntil body l s'
    | .blocked _, none => none :: l.map (fun _ => none)
    | .ok b s', some q =>
      if Moment.notAfter (s'.rest.length, s'.phase) q then some (.ok b, (s'.rest.length, s'.phase)) :: lockedUntil body l s'
      else none :: lockedUntil body l (freeAt t q s)
    | .err e s', some q =>
      if Moment.notAfter (s'.rest.length, s'.phase) q then some (.error e, (s'.rest.length, s'.phase)) :: lockedUntil body l s'
      else none :: lockedUntil body l (freeAt t q s)
    | .blocked _, some q => none :: lockedUntil body l (freeAt t q s)

/-- The calls that ask for the lock of the response, and when (drivers/amba.py:379-381). -/
def goOnUntil : List (α × Option Moment) → List (Got Unit) → List (α × Moment × Option Moment)
  | (x, q) :: l, (.ok _, t) :: r => (x, t, q) :: goOnUntil l r
  | _ :: l, (.error _, _) :: r => goOnUntil l r
  | _, _ => []

/-- What the calls got (drivers/amba.py:379-406): an exception from the first part if they had not been given up, or what they got from the second one. -/
def bothPartsUntil : List (Got Unit) → List (Option Moment) → List (Option (Got β)) → List (Option (Got β))
  | (.error e, t) :: l, q :: qs, r => (if inTime q t then some (.error e, t) else none) :: bothPartsUntil l qs r
  | (.ok _, _) :: l, _ :: qs, y :: r => y :: bothPartsUntil l qs r
  | (.ok _, _) :: l, _ :: qs, [] => none :: bothPartsUntil l qs []
  | _, _, _ => []

/-- Calls of `write` with the moments at which they are made and at which they are given up, if they are, and calls of `read` (drivers/amba.py:316-684).
All signals and the calls of `read` are as if no call of `write` was given up: it drives nothing itself. -/
def axGiveUp (c : AxCfg) (wcalls : List (AxOp × Moment × Option Moment)) (rcalls : List (AxOp × Moment)) (s : Sim AxIn AxAll) : AxMany :=
  let calls := wcalls.map (fun x => (x.1, x.2.1))
  let aw := locked (awJob c) calls ⟨s.phase, s.out.1.1, s.prev, s.cur, s.rest⟩
  let w := locked (wJob c) calls ⟨s.phase, s.out.1.2, s.prev, s.cur, s.rest⟩
  let sent := List.zipWith joinOutcome aw.1 w.1
  let b := lockedUntil bJob (goOnUntil (wcalls.map (fun x => (x.1, x.2.2))) sent) (⟨s.phase, (), s.prev, s.cur, s.rest⟩ : Sim AxIn Unit)
  let ar := locked (arJob c) rcalls ⟨s.phase, s.out.2, s.prev, s.cur, s.rest⟩
  let r := locked (rJob c) (goOn (rcalls.map Prod.fst) ar.1) ⟨s.phase, s.out.2, s.prev, s.cur, s.rest⟩
  { writes := bothPartsUntil sent (wcalls.map (fun x => x.2.2)) b
    reads := bothParts ar.1 r.1
    trace := List.zipWith (fun q p => ((q.1, p.1), q.2)) (List.zipWith (fun q p => ((q.1, p.1), q.2)) (records aw.2) (records w.2)) (records ar.2) }

end CocotbBus
