import Verif.Spec.MonKill

namespace CocotbBus
open Spec

variable {S I T σ : Type}

theorem monRun_append (f : S → I → Except PyErr (S × List T)) (m : MonObj S T σ) (a b : List (MonEv I T σ)) : m.run f (a ++ b) = (m.run f a).run f b := by
  simp [MonObj.run]

theorem waitStep_same (m : MonObj S T σ) (o : WaitOp T) : (m.waitStep o).mon = m.mon ∧ (m.waitStep o).thread = m.thread ∧ (m.waitStep o).world = m.world := by
  unfold MonObj.waitStep; split <;> exact ⟨rfl, rfl, rfl⟩

/-- without a running coroutine nothing happens to what has been received -/
theorem step_stopped (f : S → I → Except PyErr (S × List T)) (m : MonObj S T σ) (h : ∀ st, m.thread ≠ .running st) (e : MonEv I T σ) :
    (∀ st, (m.step f e).thread ≠ .running st) ∧ MonObj.seen (m.step f e) = MonObj.seen m ∧ (m.step f e).world = m.world := by
  cases e with
  | edge i =>
    unfold MonObj.step
    cases ht : m.thread with
    | running st => exact absurd ht (h st)
    | failed e => exact ⟨fun st => by simp [ht], rfl, rfl⟩
    | none => exact ⟨fun st => by simp [ht], rfl, rfl⟩
  | kill => exact ⟨fun st => by simp [MonObj.step], rfl, rfl⟩
  | addCallback c => exact ⟨h, rfl, rfl⟩
  | start w t => obtain ⟨a, b, c⟩ := waitStep_same m (.start w t); exact ⟨fun st => by rw [show (m.step f (.start w t)).thread = _ from b]; exact h st, by simp [MonObj.step, MonObj.seen, a], c⟩
  | timer w => obtain ⟨a, b, c⟩ := waitStep_same m (.timer w); exact ⟨fun st => by rw [show (m.step f (.timer w)).thread = _ from b]; exact h st, by simp [MonObj.step, MonObj.seen, a], c⟩
  | resume w => obtain ⟨a, b, c⟩ := waitStep_same m (.resume w); exact ⟨fun st => by rw [show (m.step f (.resume w)).thread = _ from b]; exact h st, by simp [MonObj.step, MonObj.seen, a], c⟩

theorem run_stopped (f : S → I → Except PyErr (S × List T)) (evs : List (MonEv I T σ)) : ∀ (m : MonObj S T σ), (∀ st, m.thread ≠ .running st) →
    (∀ st, (m.run f evs).thread ≠ .running st) ∧ MonObj.seen (m.run f evs) = MonObj.seen m ∧ (m.run f evs).world = m.world := by
  induction evs with
  | nil => intro m h; exact ⟨h, rfl, rfl⟩
  | cons e r ih =>
    intro m h
    obtain ⟨h1, h2, h3⟩ := step_stopped f m h e
    obtain ⟨g1, g2, g3⟩ := ih _ h1
    exact ⟨g1, g2.trans h2, g3.trans h3⟩

/-- callbacks that never raise -/
theorem runCallbacks_quiet (cs : List (Callback T σ)) (hq : ∀ c ∈ cs, ∀ t w, (c t w).2 = none) (t : T) :
    ∀ w, runCallbacks cs t w = (cs.foldl (fun w c => (c t w).1) w, none) := by
  induction cs with
  | nil => intro w; rfl
  | cons c r ih =>
    intro w
    have hc := hq c (by simp) t w
    unfold runCallbacks
    rcases hr : c t w with ⟨w', e⟩
    rw [hr] at hc
    cases hc
    simp only [List.foldl_cons, hr]
    exact ih (fun c hc => hq c (by simp [hc])) w'

theorem recv_quiet (m : Monitor T σ) (hq : ∀ c ∈ m.callbacks, ∀ t w, (c t w).2 = none) (t : T) (w : σ) :
    m.recv t w = ({ m with received := m.received + 1, queue := m.queue ++ (if m.callbacks.isEmpty then [t] else []), eventSets := m.eventSets ++ (if m.hasEvent then [t] else []), waitData := some t }, m.callbacks.foldl (fun w c => (c t w).1) w, none) := by
  unfold Monitor.recv
  simp only [runCallbacks_quiet m.callbacks hq t w]
  cases m.callbacks.isEmpty <;> cases m.hasEvent <;> simp

theorem deliver_quiet (ts : List T) : ∀ (m : MonObj S T σ), (∀ c ∈ m.mon.callbacks, ∀ t w, (c t w).2 = none) →
    MonObj.seen (m.deliver ts) = ⟨m.mon.received + ts.length, m.mon.queue ++ (if m.mon.callbacks.isEmpty then ts else []), m.mon.eventSets ++ (if m.mon.hasEvent then ts else [])⟩ ∧
    (m.deliver ts).world = allCalled m.mon.callbacks ts m.world ∧ (m.deliver ts).thread = m.thread ∧ (m.deliver ts).mon.callbacks = m.mon.callbacks ∧
    (m.deliver ts).mon.hasEvent = m.mon.hasEvent := by
  induction ts with
  | nil => intro m hq; exact ⟨by simp [MonObj.deliver, MonObj.seen], rfl, rfl, rfl, rfl⟩
  | cons t r ih =>
    intro m hq
    unfold MonObj.deliver
    rw [recv_quiet m.mon hq t m.world]
    obtain ⟨h1, h2, h3, h4, h5⟩ := ih { m with
      mon := { m.mon with received := m.mon.received + 1, queue := m.mon.queue ++ (if m.mon.callbacks.isEmpty then [t] else []), eventSets := m.mon.eventSets ++ (if m.mon.hasEvent then [t] else []), waitData := some t }
      world := m.mon.callbacks.foldl (fun w c => (c t w).1) m.world, wait := m.wait.recv t } hq
    refine ⟨?_, h2, h3, h4, h5⟩
    rw [h1]
    simp only [List.length_cons, List.append_assoc, Seen.mk.injEq]
    refine ⟨by omega, ?_, ?_⟩
    · cases m.mon.callbacks.isEmpty <;> simp
    · cases m.mon.hasEvent <;> simp

/-- a monitor that is not killed, with callbacks that do not raise, receives what its coroutine decodes -/
theorem run_quiet (f : S → I → Except PyErr (S × List T)) (evs : List (MonEv I T σ)) : ∀ (m : MonObj S T σ) (st : S), m.thread = .running st →
    (∀ e ∈ evs, e ≠ .kill) → NoNewCallbacks evs → (∀ c ∈ m.mon.callbacks, ∀ t w, (c t w).2 = none) →
    let ts := decoded f st (edgesOf evs)
    MonObj.seen (m.run f evs) = ⟨m.mon.received + ts.length, m.mon.queue ++ (if m.mon.callbacks.isEmpty then ts else []), m.mon.eventSets ++ (if m.mon.hasEvent then ts else [])⟩ ∧
    (m.run f evs).world = allCalled m.mon.callbacks ts m.world := by
  induction evs with
  | nil => intro m st ht _ _ hq; exact ⟨by simp [MonObj.run, MonObj.seen, decoded, edgesOf], rfl⟩
  | cons e r ih =>
    intro m st ht hk hn hq
    have hk' : ∀ e ∈ r, e ≠ .kill := fun e he => hk e (by simp [he])
    have hn' : NoNewCallbacks r := fun e he => hn e (by simp [he])
    have other : ∀ m' : MonObj S T σ, m'.mon = m.mon → m'.thread = m.thread → m'.world = m.world →
        let ts := decoded f st (edgesOf r)
        MonObj.seen (m'.run f r) = ⟨m.mon.received + ts.length, m.mon.queue ++ (if m.mon.callbacks.isEmpty then ts else []), m.mon.eventSets ++ (if m.mon.hasEvent then ts else [])⟩ ∧
        (m'.run f r).world = allCalled m.mon.callbacks ts m.world := by
      intro m' h1 h2 h3
      have := ih m' st (by rw [h2, ht]) hk' hn' (by rw [h1]; exact hq)
      rw [h1, h3] at this
      exact this
    cases e with
    | edge i =>
      show MonObj.seen ((m.step f (.edge i)).run f r) = _ ∧ ((m.step f (.edge i)).run f r).world = _
      unfold MonObj.step edgesOf decoded
      rw [ht]
      cases hf : f st i with
      | error e =>
        obtain ⟨-, g2, g3⟩ := run_stopped f r { m with thread := .failed e } (fun st => by simp)
        simp only [hf]
        refine ⟨?_, by rw [g3]; rfl⟩
        rw [g2]
        simp [MonObj.seen]
      | ok x =>
        obtain ⟨st', ts⟩ := x
        simp only [hf]
        obtain ⟨h1, h2, h3, h4, h5⟩ := deliver_quiet ts { m with thread := .running st' } hq
        have := ih (MonObj.deliver { m with thread := .running st' } ts) st' h3 hk' hn' (by rw [h4]; exact hq)
        rw [h4, h5, h2] at this
        obtain ⟨g1, g2⟩ := this
        refine ⟨?_, by rw [g2]; simp [allCalled]⟩
        rw [g1]
        simp only [MonObj.seen, Seen.mk.injEq] at h1
        obtain ⟨q1, q2, q3⟩ := h1
        rw [q1, q2, q3]
        simp only [List.length_append, Seen.mk.injEq, List.append_assoc]
        refine ⟨by omega, ?_, ?_⟩
        · cases m.mon.callbacks.isEmpty <;> simp
        · cases m.mon.hasEvent <;> simp
    | kill => exact absurd rfl (hk .kill (by simp))
    | addCallback c => exact absurd rfl (hn _ (by simp) c)
    | start w t => obtain ⟨a, b, c⟩ := waitStep_same m (.start w t); exact other _ a b c
    | timer w => obtain ⟨a, b, c⟩ := waitStep_same m (.timer w); exact other _ a b c
    | resume w => obtain ⟨a, b, c⟩ := waitStep_same m (.resume w); exact other _ a b c

/-! ### Callbacks that may raise -/

theorem runCallbacks_each (cs : List (Callback T σ)) (t : T) : ∀ w, runCallbacks cs t w = callEach cs t w := by
  induction cs with
  | nil => intro w; rfl
  | cons c r ih =>
    intro w
    unfold runCallbacks callEach
    generalize c t w = x
    obtain ⟨w', e⟩ := x
    cases e with
    | none => simpa using ih w'
    | some e => simp

theorem run_failed (f : S → I → Except PyErr (S × List T)) (evs : List (MonEv I T σ)) (hk : ∀ e ∈ evs, e ≠ .kill) : ∀ (m : MonObj S T σ) (e : PyErr), m.thread = .failed e →
    (m.run f evs).thread = .failed e := by
  induction evs with
  | nil => intro m e h; exact h
  | cons ev r ih =>
    intro m e h
    refine ih (fun e he => hk e (by simp [he])) _ e ?_
    cases ev with
    | edge i => unfold MonObj.step; simp only [h]
    | kill => exact absurd rfl (hk .kill (by simp))
    | addCallback c => exact h
    | start w t => exact (waitStep_same m (.start w t)).2.1.trans h
    | timer w => exact (waitStep_same m (.timer w)).2.1.trans h
    | resume w => exact (waitStep_same m (.resume w)).2.1.trans h

theorem recv_any (m : Monitor T σ) (t : T) (w : σ) :
    m.recv t w = if (callEach m.callbacks t w).2 = none then
      ({ m with received := m.received + 1, queue := m.queue ++ (if m.callbacks.isEmpty then [t] else []), eventSets := m.eventSets ++ (if m.hasEvent then [t] else []), waitData := some t }, (callEach m.callbacks t w).1, none)
    else ({ m with received := m.received + 1 }, (callEach m.callbacks t w).1, (callEach m.callbacks t w).2) := by
  unfold Monitor.recv
  simp only [runCallbacks_each]
  generalize callEach m.callbacks t w = y
  obtain ⟨w', e⟩ := y
  cases e with
  | some e => simp
  | none => cases m.callbacks.isEmpty <;> cases m.hasEvent <;> simp

theorem deliver_any (ts : List T) : ∀ (m : MonObj S T σ),
    let x := callsUntil m.mon.callbacks ts m.world
    MonObj.seen (m.deliver ts) = ⟨m.mon.received + x.started.length, m.mon.queue ++ (if m.mon.callbacks.isEmpty then x.finished else []), m.mon.eventSets ++ (if m.mon.hasEvent then x.finished else [])⟩ ∧
    (m.deliver ts).world = x.world ∧ (m.deliver ts).thread = x.raised.elim m.thread .failed ∧ (m.deliver ts).mon.callbacks = m.mon.callbacks ∧
    (m.deliver ts).mon.hasEvent = m.mon.hasEvent := by
  induction ts with
  | nil => intro m; exact ⟨by simp [MonObj.deliver, MonObj.seen, callsUntil], rfl, rfl, rfl, rfl⟩
  | cons t r ih =>
    intro m
    unfold MonObj.deliver callsUntil
    rw [recv_any]
    have ih := ih { m with
        mon := { m.mon with received := m.mon.received + 1, queue := m.mon.queue ++ (if m.mon.callbacks.isEmpty then [t] else []), eventSets := m.mon.eventSets ++ (if m.mon.hasEvent then [t] else []), waitData := some t }
        world := (callEach m.mon.callbacks t m.world).1, wait := m.wait.recv t }
    cases he : (callEach m.mon.callbacks t m.world).2 with
    | some e =>
      simp [MonObj.seen]
    | none =>
      simp only [if_true]
      obtain ⟨h1, h2, h3, h4, h5⟩ := ih
      refine ⟨?_, h2, h3, h4, h5⟩
      rw [h1]
      simp only [List.length_cons, List.append_assoc, Seen.mk.injEq]
      refine ⟨by omega, ?_, ?_⟩
      · cases m.mon.callbacks.isEmpty <;> simp
      · cases m.mon.hasEvent <;> simp

theorem callsUntil_append (cs : List (Callback T σ)) (b : List T) : ∀ (a : List T) (w : σ),
    callsUntil cs (a ++ b) w = (if (callsUntil cs a w).raised = none then
      ⟨a ++ (callsUntil cs b (callsUntil cs a w).world).started, a ++ (callsUntil cs b (callsUntil cs a w).world).finished, (callsUntil cs b (callsUntil cs a w).world).world,
        (callsUntil cs b (callsUntil cs a w).world).raised⟩ else callsUntil cs a w) ∧
    ((callsUntil cs a w).raised = none → (callsUntil cs a w).started = a ∧ (callsUntil cs a w).finished = a)
  | [], w => ⟨by simp [callsUntil], fun _ => ⟨rfl, rfl⟩⟩
  | t :: a, w => by
    obtain ⟨h1, h2⟩ := callsUntil_append cs b a (callEach cs t w).1
    rw [List.cons_append, callsUntil, callsUntil]
    cases he : (callEach cs t w).2 with
    | some e => simp
    | none =>
      simp only [if_true]
      rw [h1]
      refine ⟨?_, fun h => ?_⟩
      · split <;> simp
      · obtain ⟨g1, g2⟩ := h2 h
        rw [g1, g2]; exact ⟨rfl, rfl⟩

/-- a monitor that is not killed, with any callbacks -/
theorem run_any (f : S → I → Except PyErr (S × List T)) (evs : List (MonEv I T σ)) : ∀ (m : MonObj S T σ) (st : S), m.thread = .running st →
    (∀ e ∈ evs, e ≠ .kill) → NoNewCallbacks evs →
    let x := callsUntil m.mon.callbacks (decoded f st (edgesOf evs)) m.world
    MonObj.seen (m.run f evs) = ⟨m.mon.received + x.started.length, m.mon.queue ++ (if m.mon.callbacks.isEmpty then x.finished else []), m.mon.eventSets ++ (if m.mon.hasEvent then x.finished else [])⟩ ∧
    (m.run f evs).world = x.world ∧ (∀ e, x.raised = some e → (m.run f evs).thread = .failed e) := by
  induction evs with
  | nil => intro m st ht _ _; exact ⟨by simp [MonObj.run, MonObj.seen, decoded, edgesOf, callsUntil], rfl, fun e he => by cases he⟩
  | cons e r ih =>
    intro m st ht hk hn
    have hk' : ∀ e ∈ r, e ≠ .kill := fun e he => hk e (by simp [he])
    have hn' : NoNewCallbacks r := fun e he => hn e (by simp [he])
    have other : ∀ m' : MonObj S T σ, m'.mon = m.mon → m'.thread = m.thread → m'.world = m.world →
        let x := callsUntil m.mon.callbacks (decoded f st (edgesOf r)) m.world
        MonObj.seen (m'.run f r) = ⟨m.mon.received + x.started.length, m.mon.queue ++ (if m.mon.callbacks.isEmpty then x.finished else []), m.mon.eventSets ++ (if m.mon.hasEvent then x.finished else [])⟩ ∧
        (m'.run f r).world = x.world ∧ (∀ e, x.raised = some e → (m'.run f r).thread = .failed e) := by
      intro m' h1 h2 h3
      have := ih m' st (by rw [h2, ht]) hk' hn'
      rw [h1, h3] at this
      exact this
    cases e with
    | edge i =>
      show MonObj.seen ((m.step f (.edge i)).run f r) = _ ∧ ((m.step f (.edge i)).run f r).world = _ ∧ (∀ e, _ → ((m.step f (.edge i)).run f r).thread = _)
      unfold MonObj.step edgesOf decoded
      rw [ht]
      cases hf : f st i with
      | error e =>
        obtain ⟨-, g2, g3⟩ := run_stopped f r { m with thread := .failed e } (fun st => by simp)
        simp only [hf]
        refine ⟨?_, by rw [g3]; rfl, fun e he => by cases he⟩
        rw [g2]
        simp [MonObj.seen, callsUntil]
      | ok x =>
        obtain ⟨st', ts⟩ := x
        simp only [hf]
        obtain ⟨h1, h2, h3, h4, h5⟩ := deliver_any ts { m with thread := .running st' }
        obtain ⟨a1, a2⟩ := callsUntil_append m.mon.callbacks (decoded f st' (edgesOf r)) ts m.world
        simp only [MonObj.seen, Seen.mk.injEq] at h1
        obtain ⟨q1, q2, q3⟩ := h1
        rw [a1]
        cases hr : (callsUntil m.mon.callbacks ts m.world).raised with
        | some e =>
          rw [hr] at h3
          obtain ⟨-, g2, g3⟩ := run_stopped f r (MonObj.deliver { m with thread := .running st' } ts) (fun st => by rw [h3]; simp)
          simp only [reduceCtorEq, if_false]
          refine ⟨?_, by rw [g3, h2], fun e' he => ?_⟩
          · rw [g2]; simp only [MonObj.seen, q1, q2, q3]
          · rw [hr] at he; cases he
            exact run_failed f r hk' _ e h3
        | none =>
          rw [hr] at h3
          obtain ⟨s1, s2⟩ := a2 hr
          have := ih (MonObj.deliver { m with thread := .running st' } ts) st' h3 hk' hn'
          rw [h4, h5, h2] at this
          obtain ⟨g1, g2, g3⟩ := this
          simp only [if_true]
          refine ⟨?_, g2, g3⟩
          rw [g1, q1, q2, q3, s1, s2]
          simp only [List.length_append, Seen.mk.injEq, List.append_assoc]
          refine ⟨by omega, ?_, ?_⟩
          · cases m.mon.callbacks.isEmpty <;> simp
          · cases m.mon.hasEvent <;> simp
    | kill => exact absurd rfl (hk .kill (by simp))
    | addCallback c => exact absurd rfl (hn _ (by simp) c)
    | start w t => obtain ⟨a, b, c⟩ := waitStep_same m (.start w t); exact other _ a b c
    | timer w => obtain ⟨a, b, c⟩ := waitStep_same m (.timer w); exact other _ a b c
    | resume w => obtain ⟨a, b, c⟩ := waitStep_same m (.resume w); exact other _ a b c

theorem untilKill_split (evs : List (MonEv I T σ)) : (∀ e ∈ untilKill evs, e ≠ .kill) ∧ (evs = untilKill evs ∨ ∃ post, evs = untilKill evs ++ .kill :: post) := by
  induction evs with
  | nil => exact ⟨by simp [untilKill], .inl rfl⟩
  | cons e r ih =>
    obtain ⟨h1, h2⟩ := ih
    by_cases he : e = .kill
    · subst he; exact ⟨by simp [untilKill], .inr ⟨r, rfl⟩⟩
    · have hu : untilKill (e :: r) = e :: untilKill r := by
        cases e <;> first | exact absurd rfl he | rfl
      rw [hu]
      refine ⟨fun e' h => ?_, ?_⟩
      · rcases List.mem_cons.1 h with rfl | h
        · exact he
        · exact h1 e' h
      · rcases h2 with h2 | ⟨post, h2⟩
        · exact .inl (by rw [← h2])
        · exact .inr ⟨post, by rw [List.cons_append, ← h2]⟩

theorem decoded_prefix (f : S → I → Except PyErr (S × List T)) (b : List I) : ∀ (a : List I) (st : S), decoded f st a <+: decoded f st (a ++ b)
  | [], st => List.nil_prefix
  | i :: r, st => by
    rw [List.cons_append]
    unfold decoded
    cases f st i with
    | error e => exact List.prefix_rfl
    | ok x => exact (List.prefix_append_right_inj _).2 (decoded_prefix f b r x.1)

theorem edgesOf_append (a b : List (MonEv I T σ)) : edgesOf (a ++ b) = edgesOf a ++ edgesOf b := by
  induction a with
  | nil => rfl
  | cons e r ih => cases e <;> simp [edgesOf, ih]

/-! ### Tasks in `wait_for_recv` -/

/-- the tasks of a monitor without a running coroutine go on by themselves -/
theorem step_tasks (f : S → I → Except PyErr (S × List T)) (m : MonObj S T σ) (h : ∀ st, m.thread ≠ .running st) (e : MonEv I T σ) (w : Nat) :
    (m.step f e).wait.data = m.wait.data ∧
    ((m.step f e).wait.tasks w = m.wait.tasks w ∨
     (m.wait.tasks w = .idle ∧ ((m.step f e).wait.tasks w = .waiting true ∨ (m.step f e).wait.tasks w = .waiting false)) ∨
     (m.wait.tasks w = .waiting true ∧ (m.step f e).wait.tasks w = .timedOut) ∨ (m.wait.tasks w = .timedOut ∧ (m.step f e).wait.tasks w = .done none) ∨
     (m.wait.tasks w = .woken ∧ (m.step f e).wait.tasks w = .done m.wait.data)) := by
  have ws : ∀ (o : WaitOp T), (∀ t, o ≠ .recv t) → (m.waitStep o).wait.data = m.wait.data ∧
      ((m.waitStep o).wait.tasks w = m.wait.tasks w ∨
       (m.wait.tasks w = .idle ∧ ((m.waitStep o).wait.tasks w = .waiting true ∨ (m.waitStep o).wait.tasks w = .waiting false)) ∨
       (m.wait.tasks w = .waiting true ∧ (m.waitStep o).wait.tasks w = .timedOut) ∨ (m.wait.tasks w = .timedOut ∧ (m.waitStep o).wait.tasks w = .done none) ∨
       (m.wait.tasks w = .woken ∧ (m.waitStep o).wait.tasks w = .done m.wait.data)) := by
    intro o ho
    have set : ∀ (w' : Nat) (x : WaitTask T), (m.wait.setTask w' x).data = m.wait.data ∧ ((m.wait.setTask w' x).tasks w = m.wait.tasks w ∨ (w = w' ∧ (m.wait.setTask w' x).tasks w = x)) := by
      intro w' x
      refine ⟨rfl, ?_⟩
      by_cases hw : w = w'
      · exact .inr ⟨hw, by simp [WaitSys.setTask, hw]⟩
      · exact .inl (by simp [WaitSys.setTask, hw])
    unfold MonObj.waitStep
    cases o with
    | recv t => exact absurd rfl (ho t)
    | start w' t =>
      cases hw : m.wait.tasks w' with
      | idle =>
        rcases t with _ | _ | t
        · simp only [WaitSys.step, hw]
          obtain ⟨a, b | ⟨rfl, b⟩⟩ := set w' (.waiting false)
          · exact ⟨a, .inl b⟩
          · exact ⟨a, .inr (.inl ⟨hw, .inr b⟩)⟩
        · simp only [WaitSys.step, hw]
          obtain ⟨a, b | ⟨rfl, b⟩⟩ := set w' (.waiting false)
          · exact ⟨a, .inl b⟩
          · exact ⟨a, .inr (.inl ⟨hw, .inr b⟩)⟩
        · simp only [WaitSys.step, hw]
          obtain ⟨a, b | ⟨rfl, b⟩⟩ := set w' (.waiting true)
          · exact ⟨a, .inl b⟩
          · exact ⟨a, .inr (.inl ⟨hw, .inl b⟩)⟩
      | waiting b => simp [WaitSys.step, hw]
      | woken => simp [WaitSys.step, hw]
      | timedOut => simp [WaitSys.step, hw]
      | done r => simp [WaitSys.step, hw]
    | timer w' =>
      cases hw : m.wait.tasks w' with
      | idle => simp [WaitSys.step, hw]
      | waiting b =>
        cases b with
        | false => simp [WaitSys.step, hw]
        | true =>
          simp only [WaitSys.step, hw]
          obtain ⟨a, b | ⟨rfl, b⟩⟩ := set w' .timedOut
          · exact ⟨a, .inl b⟩
          · exact ⟨a, .inr (.inr (.inl ⟨hw, b⟩))⟩
      | woken => simp [WaitSys.step, hw]
      | timedOut => simp [WaitSys.step, hw]
      | done r => simp [WaitSys.step, hw]
    | resume w' =>
      cases hw : m.wait.tasks w' with
      | idle => simp [WaitSys.step, hw]
      | waiting b => simp [WaitSys.step, hw]
      | woken =>
        simp only [WaitSys.step, hw]
        obtain ⟨a, b | ⟨rfl, b⟩⟩ := set w' (.done m.wait.data)
        · exact ⟨a, .inl b⟩
        · exact ⟨a, .inr (.inr (.inr (.inr ⟨hw, b⟩)))⟩
      | timedOut =>
        simp only [WaitSys.step, hw]
        obtain ⟨a, b | ⟨rfl, b⟩⟩ := set w' (.done none)
        · exact ⟨a, .inl b⟩
        · exact ⟨a, .inr (.inr (.inr (.inl ⟨hw, b⟩)))⟩
      | done r => simp [WaitSys.step, hw]
  cases e with
  | edge i =>
    unfold MonObj.step
    cases ht : m.thread with
    | running st => exact absurd ht (h st)
    | failed e => exact ⟨rfl, .inl rfl⟩
    | none => exact ⟨rfl, .inl rfl⟩
  | kill => exact ⟨rfl, .inl rfl⟩
  | addCallback c => exact ⟨rfl, .inl rfl⟩
  | start w t => exact ws _ (by simp)
  | timer w => exact ws _ (by simp)
  | resume w => exact ws _ (by simp)

theorem run_tasks (f : S → I → Except PyErr (S × List T)) (w : Nat) (P : WaitTask T → Prop) (d : Option T)
    (h1 : P .idle → P (.waiting true) ∧ P (.waiting false)) (h2 : P (.waiting true) → P .timedOut) (h3 : P .timedOut → P (.done none)) (h4 : P .woken → P (.done d))
    (evs : List (MonEv I T σ)) : ∀ (m : MonObj S T σ), (∀ st, m.thread ≠ .running st) → m.wait.data = d → P (m.wait.tasks w) → P ((m.run f evs).wait.tasks w) := by
  induction evs with
  | nil => intro m _ _ hp; exact hp
  | cons e r ih =>
    intro m hm hd hp
    obtain ⟨g1, g2⟩ := step_tasks f m hm e w
    refine ih _ (step_stopped f m hm e).1 (g1.trans hd) ?_
    rcases g2 with g | ⟨g, g' | g'⟩ | ⟨g, g'⟩ | ⟨g, g'⟩ | ⟨g, g'⟩
    · show P ((m.step f e).wait.tasks w)
      rw [g]; exact hp
    · rw [g] at hp; show P ((m.step f e).wait.tasks w); rw [g']; exact (h1 hp).1
    · rw [g] at hp; show P ((m.step f e).wait.tasks w); rw [g']; exact (h1 hp).2
    · rw [g] at hp; show P ((m.step f e).wait.tasks w); rw [g']; exact h2 hp
    · rw [g] at hp; show P ((m.step f e).wait.tasks w); rw [g']; exact h3 hp
    · rw [g] at hp; show P ((m.step f e).wait.tasks w); rw [g', hd]; exact h4 hp

/-! ### The monitors of the package -/

theorem stMonitor_decoded (c : StCfg) (t : List (StOut × StIn)) : decoded (stEdge c) () t = (stMonitor c t).1 := by
  induction t with
  | nil => rfl
  | cons q r ih =>
    obtain ⟨o, i⟩ := q
    by_cases hv : stValid c o i = true
    · cases hb : convertBinaryToBytes (pinValue o.data) c.highFirst with
      | error e =>
        have he : stEdge c () (o, i) = .error e := by simp [stEdge, stMonitor, hv, hb]
        simp [decoded, he, stMonitor, hv, hb]
      | ok b =>
        have he : stEdge c () (o, i) = .ok ((), [b]) := by simp [stEdge, stMonitor, hv, hb]
        simp [decoded, he, stMonitor, hv, hb, ih]
    · have he : stEdge c () (o, i) = .ok ((), []) := by simp [stEdge, stMonitor, hv]
      simp [decoded, he, stMonitor, hv, ih]

theorem pkMonitor_decoded (c : PkCfg) (t : List (PkOut × PkIn)) : ∀ st, decoded (pkEdge c) st t = (pkMonitor c t st).1 := by
  induction t with
  | nil => intro st; rfl
  | cons q r ih =>
    intro st
    obtain ⟨o, i⟩ := q
    cases hs : pkStep c st o i with
    | error e =>
      have he : pkEdge c st (o, i) = .error e := by simp [pkEdge, hs, Except.map]
      simp [decoded, he, pkMonitor, hs]
    | ok x =>
      have he : pkEdge c st (o, i) = .ok (x.1, x.2.toList) := by simp [pkEdge, hs, Except.map]
      simp [decoded, he, pkMonitor, hs, ih]

theorem xgMonitor_decoded (c : XgCfg) (crc : Bytes → Nat) (t : List LogicArray) : ∀ st, decoded (xgEdge c crc) st t = (xgMonitor c crc t st).1.filterMap xgPacket := by
  induction t with
  | nil => intro st; rfl
  | cons v r ih =>
    intro st
    cases hs : xgStep c crc st v with
    | error e =>
      have he : xgEdge c crc st v = .error e := by simp [xgEdge, hs, Except.map]
      simp [decoded, he, xgMonitor, hs]
    | ok x =>
      have he : xgEdge c crc st v = .ok (x.1, x.2.filterMap xgPacket) := by simp [xgEdge, hs, Except.map]
      simp [decoded, he, xgMonitor, hs, ih]

end CocotbBus
