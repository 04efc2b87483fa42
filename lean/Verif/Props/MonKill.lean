import Verif.Proof.MonKill

/-! C129: killing a monitor. -/

namespace CocotbBus

open Spec

variable {S I T σ : Type}

/-- C129: after `kill()` nothing is received any more, whatever is on the bus: statistics, queue, event and the effects of callbacks stay as they were at
that moment, also if callbacks are added later or `kill()` is called again. -/
theorem C129_stays (f : S → I → Except PyErr (S × List T)) (m : MonObj S T σ) (pre post : List (MonEv I T σ)) :
    MonObj.seen (m.run f (pre ++ .kill :: post)) = MonObj.seen (m.run f pre) ∧ (m.run f (pre ++ .kill :: post)).world = (m.run f pre).world := by
  rw [monRun_append]
  obtain ⟨-, h2, h3⟩ := run_stopped f post ((m.run f pre).step f .kill) (fun st => by simp [MonObj.step])
  exact ⟨h2, h3⟩

/-- C129: what a monitor has received, with or without a `kill()` in its history: all transactions that were complete on the bus before the first one, in
their order, and nothing else. Without a callback they are in the queue; with one, which does not raise, it was called with each of them. -/
theorem C129_received (f : S → I → Except PyErr (S × List T)) (callback : Option (Callback T σ)) (hq : ∀ c ∈ callback, ∀ t w, (c t w).2 = none)
    (event : Bool) (st : S) (w : σ) (evs : List (MonEv I T σ)) (hn : NoNewCallbacks evs) :
    let m := (MonObj.new callback event st w).run f evs
    let ts := decoded f st (edgesOf (untilKill evs))
    MonObj.seen m = ⟨ts.length, if callback.isNone then ts else [], if event then ts else []⟩ ∧ m.world = allCalled callback.toList ts w := by
  intro m ts
  obtain ⟨h1, h2⟩ := untilKill_split evs
  have hn' : NoNewCallbacks (untilKill evs) := by
    rcases h2 with h2 | ⟨post, h2⟩
    · rw [← h2]; exact hn
    · intro e he; exact hn e (by rw [h2]; simp [he])
  have key := run_quiet f (untilKill evs) (MonObj.new callback event st w) st rfl h1 hn' (fun c hc => hq c (by simpa [MonObj.new] using hc))
  have hm : MonObj.seen m = MonObj.seen ((MonObj.new callback event st w).run f (untilKill evs)) ∧ m.world = ((MonObj.new callback event st w).run f (untilKill evs)).world := by
    rcases h2 with h2 | ⟨post, h2⟩
    · rw [← h2]; exact ⟨rfl, rfl⟩
    · have := C129_stays f (MonObj.new callback event st w) (untilKill evs) post
      rw [← h2] at this; exact this
  rw [hm.1, hm.2, key.1, key.2]
  refine ⟨?_, rfl⟩
  cases callback <;> simp [MonObj.new, ts] <;> cases event <;> simp

/-- C129, with a callback that may raise: the same, up to the transaction at which it raises. That one still counts, but nothing after it is received, and the
coroutine has ended with the exception. -/
theorem C129_raising (f : S → I → Except PyErr (S × List T)) (callback : Option (Callback T σ)) (event : Bool) (st : S) (w : σ) (evs : List (MonEv I T σ)) (hn : NoNewCallbacks evs) :
    let m := (MonObj.new callback event st w).run f evs
    let x := callsUntil callback.toList (decoded f st (edgesOf (untilKill evs))) w
    MonObj.seen m = ⟨x.started.length, if callback.isNone then x.finished else [], if event then x.finished else []⟩ ∧ m.world = x.world ∧
    (∀ e, x.raised = some e → (∀ ev ∈ evs, ev ≠ .kill) → m.thread = .failed e) := by
  intro m x
  obtain ⟨h1, h2⟩ := untilKill_split evs
  have hn' : NoNewCallbacks (untilKill evs) := by
    rcases h2 with h2 | ⟨post, h2⟩
    · rw [← h2]; exact hn
    · intro e he; exact hn e (by rw [h2]; simp [he])
  obtain ⟨k1, k2, k3⟩ := run_any f (untilKill evs) (MonObj.new callback event st w) st rfl h1 hn'
  have hm : MonObj.seen m = MonObj.seen ((MonObj.new callback event st w).run f (untilKill evs)) ∧ m.world = ((MonObj.new callback event st w).run f (untilKill evs)).world := by
    rcases h2 with h2 | ⟨post, h2⟩
    · rw [← h2]; exact ⟨rfl, rfl⟩
    · have := C129_stays f (MonObj.new callback event st w) (untilKill evs) post
      rw [← h2] at this; exact this
  refine ⟨?_, hm.2.trans k2, fun e he hk => ?_⟩
  · rw [hm.1, k1]
    cases callback <;> simp [MonObj.new, x] <;> cases event <;> simp
  · rcases h2 with h2 | ⟨post, h2⟩
    · have := k3 e he
      rw [← h2] at this; exact this
    · exact absurd rfl (hk .kill (by rw [h2]; simp))

/-- C129: so a monitor that is killed has received the first ones of the transactions it would have received otherwise. -/
theorem C129_prefix (f : S → I → Except PyErr (S × List T)) (st : S) (evs : List (MonEv I T σ)) :
    decoded f st (edgesOf (untilKill evs)) <+: decoded f st (edgesOf evs) := by
  obtain ⟨-, h2 | ⟨post, h2⟩⟩ := untilKill_split evs
  · rw [← h2]; exact List.prefix_rfl
  · conv => rhs; rw [h2]
    rw [edgesOf_append]
    exact decoded_prefix f _ _ st

/-- C129: what the monitors of the package report at successive edges is what they report of the trace as a whole. -/
theorem C129_monitors (cs : StCfg) (cp : PkCfg) (cx : XgCfg) (crc : Bytes → Nat) (ts : List (StOut × StIn)) (tp : List (PkOut × PkIn)) (tx : List LogicArray)
    (sp : PkState) (sx : XgState) :
    decoded (stEdge cs) () ts = (stMonitor cs ts).1 ∧ decoded (pkEdge cp) sp tp = (pkMonitor cp tp sp).1 ∧
    decoded (xgEdge cx crc) sx tx = (xgMonitor cx crc tx sx).1.filterMap xgPacket :=
  ⟨stMonitor_decoded cs ts, pkMonitor_decoded cp tp sp, xgMonitor_decoded cx crc tx sx⟩

/-- C129: calls of `wait_for_recv`. One that has not been answered when the monitor is killed, or is made later, never returns a transaction: it returns
None when its timeout has passed, and never if it has none. One whose transaction had come returns that one. -/
theorem C129_wait (f : S → I → Except PyErr (S × List T)) (m : MonObj S T σ) (post : List (MonEv I T σ)) (w : Nat) :
    let m' := m.run f (.kill :: post)
    ((m.wait.tasks w = .idle ∨ ∃ b, m.wait.tasks w = .waiting b) → ∀ r, m'.wait.tasks w = .done r → r = none) ∧
    (m.wait.tasks w = .waiting false → m'.wait.tasks w = .waiting false) ∧
    (m.wait.tasks w = .woken → m'.wait.tasks w = .woken ∨ m'.wait.tasks w = .done m.wait.data) := by
  intro m'
  have hk : ∀ st, (m.step f (.kill : MonEv I T σ)).thread ≠ .running st := fun st => by simp [MonObj.step]
  refine ⟨fun h r hr => ?_, fun h => ?_, fun h => ?_⟩
  · have := run_tasks f w (fun x => x = .idle ∨ (∃ b, x = .waiting b) ∨ x = .timedOut ∨ x = .done none) m.wait.data (by simp) (by simp) (by simp) (by simp) post _ hk rfl
      (by rcases h with h | h
          · exact .inl h
          · exact .inr (.inl h))
    rw [show (MonObj.run f _ post).wait.tasks w = .done r from hr] at this
    rcases this with h | ⟨b, h⟩ | h | h
    · cases h
    · cases h
    · cases h
    · cases h; rfl
  · exact run_tasks f w (fun x => x = .waiting false) m.wait.data (by simp) (by simp) (by simp) (by simp) post _ hk rfl h
  · exact run_tasks f w (fun x => x = .woken ∨ x = .done m.wait.data) m.wait.data (by simp) (by simp) (by simp) (by simp) post _ hk rfl (.inl h)

/-! ### Examples -/

/-- a decoder of pairs: it reports the sum of every two values, and raises at 9 -/
def pairs (st : Option Nat) (i : Nat) : Except PyErr (Option Nat × List Nat) :=
  if i = 9 then .error .valueError
  else match st with
  | none => .ok (some i, [])
  | some k => .ok (none, [k + i])

-- killed between the two halves of the second pair
example : let evs : List (MonEv Nat Nat (List Nat)) := [.edge 1, .start 0 none, .edge 2, .start 1 (some 5), .edge 3, .kill, .edge 4, .resume 0, .timer 1, .kill, .resume 1, .edge 5, .edge 6]
    let m := (MonObj.new none true none []).run pairs evs
    NoNewCallbacks evs ∧ MonObj.seen m = ⟨1, [3], [3]⟩ ∧ decoded pairs none (edgesOf (untilKill evs)) = [3] ∧ decoded pairs none (edgesOf evs) = [3, 7, 11] ∧
    m.wait.tasks 0 = .done (some 3) ∧ m.wait.tasks 1 = .done none := by
  refine ⟨?_, by decide, by decide, by decide, by decide, by decide⟩
  intro e he c
  simp only [List.mem_cons, List.not_mem_nil, or_false] at he
  rcases he with rfl | rfl | rfl | rfl | rfl | rfl | rfl | rfl | rfl | rfl | rfl | rfl | rfl <;> simp

-- with a callback; and a callback added after the kill is not called
example : let c : Callback Nat (List Nat) := fun t w => (w ++ [t], none)
    ((MonObj.new (some c) false none []).run pairs [.edge 1, .edge 2, .kill, .addCallback c, .edge 3, .edge 4]).world = [3] := by decide

-- a callback that raises at 7: the third sum is not received
example : let c : Callback Nat (List Nat) := fun t w => (w ++ [t], if t = 7 then some .valueError else none)
    let m := (MonObj.new (some c) true none []).run pairs [.edge 1, .edge 2, .edge 3, .edge 4, .edge 5, .edge 6]
    MonObj.seen m = ⟨2, [], [3]⟩ ∧ m.world = [3, 7] ∧ (callsUntil [c] [3, 7, 11] []).started = [3, 7] ∧ (callsUntil [c] [3, 7, 11] []).finished = [3] := by decide

end CocotbBus
