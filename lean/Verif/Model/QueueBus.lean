import Verif.Model.Session

/-!
# The send queue of a driver in time: `drivers/__init__.py:66-74, 117-135, 193-210`

`Driver._send_thread` with a `_driver_send` that drives a bus. When `append()` is called is arbitrary: a schedule gives, for every
moment, what has been appended so far. Callbacks and events of the transactions are in `Model/Driver.lean`.
-/

namespace CocotbBus
open Coro

variable {I O α σ : Type}

/-- When transactions are appended: `app r ph` are all those appended up to phase `ph` of the cycle that has `r` further cycles after it. -/
abbrev Sched (α : Type) := Nat → Phase → List α

/-- The current moment. -/
def now : M I O (Nat × Phase) := fun s => ([], .ok (s.rest.length, s.phase) s)

/-- Resume later in the same cycle, as the waiting coroutine does when an event is set in that phase. -/
def resumeIn (ph : Phase) : M I O Unit := fun s => ([], .ok () { s with phase := ph })

/-- `while not self._sendQ: self._pending.clear(); await self._pending.wait()` (drivers/__init__.py:196-198) when `k` transactions have
been taken off the queue: until the next `append()`, which sets the event (drivers/__init__.py:129-130). -/
def queueWait (app : Sched α) (k : Nat) : M I O Unit :=
  loop (fun (_ : Unit) => do
    let m ← now
    if k < (app m.1 m.2).length then pure (.inr ())
    else if m.2 = .edge ∧ k < (app m.1 .ro).length then do
      resumeIn .ro
      pure (.inr ())
    else if m.2 ≠ .mid ∧ k < (app m.1 .mid).length then do
      resumeIn .mid
      pure (.inr ())
    else do
      awaitEdge
      pure (.inl ())) ()

/-- One turn: take the next transaction and send it (drivers/__init__.py:196-210). The state is the number of transactions taken so far,
`synchronised`, and the state of the driver. -/
def queueBody (send : α → Bool → σ → M I O σ) (app : Sched α) (st : Nat × Bool × σ) : M I O ((Nat × Bool × σ) ⊕ Empty) := do
  let m ← now
  match (app m.1 m.2)[st.1]? with
  | some x => do
    let v ← send x (!st.2.1) st.2.2
    pure (.inl (st.1 + 1, true, v))
  | none => do
    queueWait app st.1
    let m ← now
    match (app m.1 m.2)[st.1]? with
    | some x => do
      let v ← send x true st.2.2
      pure (.inl (st.1 + 1, true, v))
    | none => hang

/-- `Driver._send_thread` (drivers/__init__.py:193-210): it never returns. -/
def queueThread (send : α → Bool → σ → M I O σ) (app : Sched α) (v : σ) : M I O Empty := loop (queueBody send app) (0, false, v)

/-- An `AvalonST` driver whose words are appended, with a valid generator (drivers/avalon.py:512-594, drivers/__init__.py:356-359). -/
def stQueue (cfg : StCfg) (gen : Option (List (Nat × Nat))) (app : Sched AvVal) : M StIn StOut Empty := do
  stConstruct cfg
  queueThread (fun x sync v => stSend cfg x sync v) app (setValidGenerator gen)

/-- An `AvalonSTPkts` driver whose packets are appended, each with its channel (drivers/avalon.py:596-788). -/
def pkQueue (c : PkCfg) (gen : Option (List (Nat × Nat))) (app : Sched (Bytes × Option Int)) : M PkIn PkOut Empty := do
  pkConstruct c
  queueThread (fun x sync v => pkSend c x.1 sync x.2 v) app (setValidGenerator gen)

end CocotbBus
