import Verif.Proof.Driver

/-! # Properties C10–C15 and C20: the driver queue and lock -/

namespace CocotbBus
open Spec
variable {T : Type}

/-- an item with event and callback -/
def exItem (n : Nat) : Item Nat := ⟨n, true, true⟩

/-! ### C10 -/

/-- C10, histories without `clear`: what was started, followed by what is queued, is what was
appended, in order. -/
theorem C10_order (h : List (DOp T)) (s : Drv T) (hr : Drv.init.run h = some s) (hc : .clear ∉ h) :
    (started s.log).map Prod.fst ++ s.queue = appended h := by
  simpa [Drv.init, started] using run_stream h hc Drv.init s hr

/-- C10, histories whose last `clear` is after `h1`: what was started by then, followed by everything
appended afterwards; the transactions queued at the `clear` are gone, none is sent twice. (Applied to the part before,
this determines the whole sequence.) -/
theorem C10_order_clear (h1 h2 : List (DOp T)) (s1 s : Drv T) (hr1 : Drv.init.run h1 = some s1)
    (hr : Drv.init.run (h1 ++ .clear :: h2) = some s) (hc : .clear ∉ h2) :
    (started s.log).map Prod.fst ++ s.queue = (started s1.log).map Prod.fst ++ appended h2 := by
  rw [Drv.run_append, hr1] at hr
  simp only [Option.bind_some, Drv.run, Drv.step] at hr
  have := run_stream h2 hc _ s hr
  simpa using this

/-- C10: after every history, with any number of calls of `clear()`, what was started followed by what is queued is what was appended without what was queued at
those calls, and nothing else is. -/
theorem C10_all (h : List (DOp T)) (s : Drv T) (hr : Drv.init.run h = some s) (l : List (Item T)) :
    ToSend (fun h q => ∃ s, Drv.init.run h = some s ∧ s.queue = q) h l ↔ l = (started s.log).map Prod.fst ++ s.queue := by
  have snoc : ∀ (h : List (DOp T)) (o : DOp T) (s : Drv T), Drv.init.run (h ++ [o]) = some s → ∃ s1, Drv.init.run h = some s1 ∧ s1.run [o] = some s := by
    intro h o s hr
    rw [Drv.run_append] at hr
    cases h1 : Drv.init.run h with
    | none => rw [h1] at hr; cases hr
    | some s1 => rw [h1] at hr; exact ⟨s1, rfl, hr⟩
  have one : ∀ (o : DOp T) (s1 s : Drv T), o ≠ .clear → s1.run [o] = some s →
      (started s.log).map Prod.fst ++ s.queue = (started s1.log).map Prod.fst ++ s1.queue ++ appended [o] := by
    intro o s1 s ho hr
    exact run_stream [o] (by simpa using fun h => ho h.symm) s1 s hr
  have clr : ∀ (s1 s : Drv T), s1.run [.clear] = some s → (started s.log).map Prod.fst ++ s.queue = (started s1.log).map Prod.fst := by
    intro s1 s hr
    simp only [Drv.run, Drv.step, Option.some.injEq] at hr
    subst hr
    simp
  constructor
  · intro ht
    induction ht generalizing s with
    | nil =>
      simp only [Drv.run, Option.some.injEq] at hr
      subst hr
      rfl
    | append it _ ih =>
      obtain ⟨s1, h1, h2⟩ := snoc _ _ _ hr
      rw [one _ _ _ (by simp) h2, ih s1 h1]
      rfl
    | clear _ hq ih =>
      obtain ⟨s1, h1, h2⟩ := snoc _ _ _ hr
      obtain ⟨s2, h3, rfl⟩ := hq
      obtain rfl : s1 = s2 := by rw [h1] at h3; exact Option.some.inj h3
      rw [clr _ _ h2]
      exact List.append_cancel_right (ih s1 h1)
    | other ha hc _ ih =>
      obtain ⟨s1, h1, h2⟩ := snoc _ _ _ hr
      rw [one _ _ _ hc h2, ih s1 h1]
      rename_i o _
      cases o with
      | append it => exact absurd rfl (ha it)
      | _ => simp [appended]
  · rintro rfl
    obtain ⟨g, rfl⟩ : ∃ g, h = g.reverse := ⟨h.reverse, by simp⟩
    induction g generalizing s with
    | nil =>
      obtain rfl : Drv.init = s := Option.some.inj hr
      exact .nil
    | cons o g ih =>
      rw [List.reverse_cons] at hr ⊢
      obtain ⟨s1, h1, h2⟩ := snoc _ _ _ hr
      have := ih s1 h1
      cases o with
      | append it =>
        rw [one _ _ _ (by simp) h2]
        exact .append it this
      | clear =>
        rw [clr _ _ h2]
        exact .clear this ⟨s1, h1, rfl⟩
      | _ =>
        rw [one _ _ _ (by simp) h2]
        simp only [appended, List.append_nil]
        exact .other (by simp) (by simp) this

-- two calls of clear()
example : ToSend (fun h q => ∃ s, Drv.init.run h = some s ∧ s.queue = q)
    [.append (exItem 1), .run, .append (exItem 2), .clear, .append (exItem 3), .sendDone, .append (exItem 4), .append (exItem 5), .clear, .append (exItem 6)]
    [exItem 1, exItem 3, exItem 6] := (C10_all _ _ rfl _).2 (by decide)

example : ∃ s, Drv.init.run [.append (exItem 1), .run, .append (exItem 2), .clear, .append (exItem 3), .sendDone] = some s ∧
    (started s.log).map Prod.fst = [exItem 1, exItem 3] := ⟨_, rfl, by decide⟩

/-! ### C11 -/

/-- C11: a live coroutine never sleeps while something is queued. -/
theorem C11_no_lost_wakeup (h : List (DOp T)) (s : Drv T) (hr : Drv.init.run h = some s) (ha : alive s) (hq : s.queue ≠ []) :
    (∃ it b, s.thread = .sending it b) ∨ s.thread = .woken ∨ s.thread = .notStarted := by
  have hn := run_nosleep h Drv.init s (by intro hx; cases hx) hr
  cases ht : s.thread with
  | notStarted => simp
  | waiting => exact absurd (hn ht) hq
  | woken => simp
  | sending it b => simp
  | dead e => exact absurd ht (ha.2 e)
  | killed => exact absurd ht ha.1

/-- C11: consequently the queue drains. From any reachable state, every schedule `d` of coroutine steps and
successful completions is finite (at most one step per queued transaction plus one), and when no
such step is possible any more the queue is empty and everything that was queued has been started in order. -/
theorem C11_drains (h d : List (DOp T)) (s s' : Drv T) (hr : Drv.init.run h = some s) (ha : alive s)
    (hd : ∀ o ∈ d, progress o) (hr' : s.run d = some s') :
    d.length ≤ s.queue.length + 1 ∧
    ((∀ o, progress o → s'.step o = none) → s'.queue = [] ∧
      (started s'.log).map Prod.fst = (started s.log).map Prod.fst ++ s.queue) := by
  have hwork : work s' + d.length = work s ∧ alive s' := by
    clear hr
    induction d generalizing s with
    | nil => simp only [Drv.run, Option.some.injEq] at hr'; subst hr'; exact ⟨by simp, ha⟩
    | cons o r ih =>
      simp only [Drv.run] at hr'
      split at hr'
      · cases hr'
      · rename_i s1 h1
        obtain ⟨a, b⟩ := progress_step s s1 o (hd o (by simp)) h1
        obtain ⟨c1, c2⟩ := ih s1 b (fun o ho => hd o (by simp [ho])) hr'
        exact ⟨by simp only [List.length_cons]; omega, c2⟩
  constructor
  · have : work s ≤ s.queue.length + 1 := by unfold work; split <;> omega
    omega
  · intro hstuck
    have hn := run_nosleep d s s' (run_nosleep h Drv.init s (by intro hx; cases hx) hr) hr'
    have hw : s'.thread = .waiting := by
      by_cases hw : s'.thread = .waiting
      · exact hw
      · obtain ⟨o, s2, h1, h2⟩ := progress_possible s' hwork.2 hw
        rw [hstuck o h1] at h2; cases h2
    have hq := hn hw
    refine ⟨hq, ?_⟩
    have hnc : DOp.clear ∉ d := fun hm => hd _ hm
    have hna : appended d = [] := by
      clear hr hr' hwork hnc
      induction d with
      | nil => rfl
      | cons o r ih =>
        have ih := ih (fun o ho => hd o (by simp [ho]))
        have ho := hd o (by simp)
        cases o <;> first | exact ih | exact ho.elim
    have := run_stream d hnc s s' hr'
    rw [hq, hna] at this
    simpa using this

example : ∃ s, Drv.init.run [.run, .append (exItem 1), .append (exItem 2), .run] = some s ∧ alive s ∧ s.queue ≠ [] :=
  ⟨_, rfl, ⟨by decide, by intro e; simp [Drv.init, outer_def]⟩, by decide⟩
example : ∃ s s' : Drv Nat, Drv.init.run [.run, .append (exItem 1), .append (exItem 2), .run] = some s ∧
    s.run [.sendDone, .sendDone] = some s' ∧ s'.queue = [] ∧ s'.thread = .waiting := ⟨_, _, rfl, rfl, rfl, rfl⟩

/-! ### C12 -/

/-- C12: a transaction is sent with `sync=True` exactly if it is the first since the coroutine last found
the queue empty (`SyncOk`). -/
theorem C12_sync (h : List (DOp T)) (s : Drv T) (hr : Drv.init.run h = some s) : SyncOk true s.log := by
  have := Drv.run_inv (fun s _ => SyncInv s) (fun s _ o s' hp hs => step_sync s o s' hp hs) h Drv.init [] s
    ⟨trivial, rfl⟩ hr
  exact this.1

/-- meaning of `SyncOk`, position by position -/
theorem C12_sync_meaning (l1 l2 : List (DEv T)) (it : Item T) (b : Bool) (h : SyncOk true (l1 ++ .start it b :: l2)) :
    b = true ↔ (started l1 = [] ∨ ∃ a c, l1 = a ++ .idle :: c ∧ started c = []) := by
  have key : ∀ (l : List (DEv T)) (f : Bool), freshAfter f l = true ↔
      ((f = true ∧ started l = []) ∨ ∃ a c, l = a ++ .idle :: c ∧ started c = []) := by
    intro l
    induction l with
    | nil => intro f; simp [freshAfter, started]
    | cons e r ih =>
      intro f
      cases e with
      | idle =>
        simp only [freshAfter, ih, started]
        constructor
        · rintro (⟨-, h⟩ | ⟨a, c, h1, h2⟩)
          · exact .inr ⟨[], r, rfl, h⟩
          · exact .inr ⟨.idle :: a, c, by simp [h1], h2⟩
        · rintro (⟨-, h⟩ | ⟨a, c, h1, h2⟩)
          · exact .inl ⟨trivial, h⟩
          · cases a with
            | nil => simp only [List.nil_append, List.cons.injEq, true_and] at h1; subst h1; exact .inl ⟨trivial, h2⟩
            | cons x xs =>
              simp only [List.cons_append, List.cons.injEq] at h1
              exact .inr ⟨xs, c, h1.2, h2⟩
      | start it b =>
        simp only [freshAfter, ih, started]
        constructor
        · rintro (⟨h, -⟩ | ⟨a, c, h1, h2⟩)
          · cases h
          · exact .inr ⟨.start it b :: a, c, by simp [h1], h2⟩
        · rintro (⟨-, h⟩ | ⟨a, c, h1, h2⟩)
          · cases h
          · cases a with
            | nil => simp at h1
            | cons x xs =>
              simp only [List.cons_append, List.cons.injEq] at h1
              exact .inr ⟨xs, c, h1.2, h2⟩
      | event it =>
        simp only [freshAfter, ih, started]
        constructor
        · rintro (h | ⟨a, c, h1, h2⟩)
          · exact .inl h
          · exact .inr ⟨.event it :: a, c, by simp [h1], h2⟩
        · rintro (h | ⟨a, c, h1, h2⟩)
          · exact .inl h
          · cases a with
            | nil => simp at h1
            | cons x xs =>
              simp only [List.cons_append, List.cons.injEq] at h1
              exact .inr ⟨xs, c, h1.2, h2⟩
      | callback it =>
        simp only [freshAfter, ih, started]
        constructor
        · rintro (h | ⟨a, c, h1, h2⟩)
          · exact .inl h
          · exact .inr ⟨.callback it :: a, c, by simp [h1], h2⟩
        · rintro (h | ⟨a, c, h1, h2⟩)
          · exact .inl h
          · cases a with
            | nil => simp at h1
            | cons x xs =>
              simp only [List.cons_append, List.cons.injEq] at h1
              exact .inr ⟨xs, c, h1.2, h2⟩
  rw [syncOk_append] at h
  rw [h.2.1, key]
  simp

example : ∃ s, Drv.init.run [.append (exItem 1), .append (exItem 2), .run, .sendDone, .sendDone, .append (exItem 3), .run] = some s ∧
    started s.log = [(exItem 1, true), (exItem 2, false), (exItem 3, true)] := ⟨_, rfl, by decide⟩

/-! ### C13 -/

/-- C13: after any history the observable events are, in order, one complete record (start, then event if given,
then callback if given) for every successfully completed send, followed by at most the bare start of the
transaction in flight (or of the one that failed or was killed). -/
theorem C13_notifications (h : List (DOp T)) (s : Drv T) (hr : Drv.init.run h = some s) :
    ∃ cs : List (Item T × Bool), cs.length = completions h ∧
      (visible s.log = cs.flatMap fullRecord ∨
        ∃ it b, visible s.log = cs.flatMap fullRecord ++ [.start it b]) ∧
      (∀ it b, s.thread = .sending it b → visible s.log = cs.flatMap fullRecord ++ [.start it b]) ∧
      (∃ rest, started s.log = cs ++ rest ∧ rest.length ≤ 1) := by
  obtain ⟨cs, h1, h2⟩ := Drv.run_inv LogInv (fun s h0 o s' hp hs => step_log s h0 o s' hp hs) h Drv.init [] s
    ⟨[], rfl, rfl⟩ hr
  have hsv : ∀ l : List (DEv T), started (visible l) = started l := by
    intro l
    induction l with
    | nil => rfl
    | cons e r ih => cases e <;> simp_all [visible, started]
  have hsf : ∀ cs : List (Item T × Bool), started (cs.flatMap fullRecord) = cs := by
    intro cs
    induction cs with
    | nil => rfl
    | cons p r ih =>
      obtain ⟨it, b⟩ := p
      rw [List.flatMap_cons, started_append, ih, fullRecord_eq]
      simp [started, started_notify]
  have hor : visible s.log = cs.flatMap fullRecord ∨ ∃ it b, visible s.log = cs.flatMap fullRecord ++ [.start it b] := by
    cases ht : s.thread with
    | sending it b => rw [ht] at h2; exact .inr ⟨it, b, h2⟩
    | dead e => rw [ht] at h2; exact h2
    | killed => rw [ht] at h2; exact h2
    | notStarted => rw [ht] at h2; exact .inl h2
    | waiting => rw [ht] at h2; exact .inl h2
    | woken => rw [ht] at h2; exact .inl h2
  refine ⟨cs, by simpa using h1, hor, ?_, ?_⟩
  · intro it b ht; rw [ht] at h2; exact h2
  · rcases hor with hv | ⟨it, b, hv⟩
    · exact ⟨[], by rw [← hsv, hv, hsf]; simp, by simp⟩
    · exact ⟨[(it, b)], by rw [← hsv, hv, started_append, hsf]; rfl, by simp⟩

example : ∃ s, Drv.init.run [.append (exItem 1), .append ⟨2, true, false⟩, .append ⟨3, false, true⟩, .run, .sendDone, .sendDone,
    .sendRaise .valueError] = some s ∧ visible s.log =
      [.start (exItem 1) true, .event (exItem 1), .callback (exItem 1), .start ⟨2, true, false⟩ false, .event ⟨2, true, false⟩,
       .start ⟨3, false, true⟩ false] := ⟨_, rfl, by decide⟩

/-! ### C14 -/

/-- C14 is false of the code: after a send or a callback raises, no later operation whatsoever makes
the driver send anything again, however much is queued. -/
theorem C14_violated (h h' : List (DOp T)) (e : PyErr) (o : DOp T) (ho : o = .sendRaise e ∨ o = .callbackRaise e)
    (s s' : Drv T) (hr : Drv.init.run (h ++ [o]) = some s) (hr' : s.run h' = some s') :
    started s'.log = started s.log := by
  have hd : ∃ e, s.thread = .dead e := by
    rw [Drv.run_append] at hr
    cases h1 : Drv.init.run h with
    | none => rw [h1] at hr; cases hr
    | some s1 =>
      rw [h1] at hr
      simp only [Option.bind_some, Drv.run] at hr
      split at hr
      · cases hr
      · rename_i s2 h2
        simp only [Option.some.injEq] at hr; subst hr
        rcases ho with rfl | rfl
        · simp only [Drv.step] at h2
          split at h2
          · simp only [Option.some.injEq] at h2; subst h2; exact ⟨e, rfl⟩
          · cases h2
        · simp only [Drv.step] at h2
          split at h2
          · split at h2
            · simp only [Option.some.injEq] at h2; subst h2; exact ⟨e, rfl⟩
            · cases h2
          · cases h2
  rw [(run_dead h' s s' hd hr').2]

/-- such a history, with a transaction left in the queue for ever -/
example : ∃ s, Drv.init.run [.append (exItem 1), .append (exItem 2), .run, .sendRaise .valueError] = some s ∧
    s.queue = [exItem 2] := ⟨_, rfl, rfl⟩

/-- another one: the callback raises, after the transaction was sent and its event set -/
example : ∃ s, Drv.init.run [.append (exItem 1), .append (exItem 2), .run, .callbackRaise .valueError, .append (exItem 3)] = some s ∧
    s.queue = [exItem 2, exItem 3] ∧ visible s.log = [.start (exItem 1) true, .event (exItem 1), .callback (exItem 1)] := ⟨_, rfl, rfl, by decide⟩

/-- C14, proved part: as long as no send and no callback has raised (and `kill` was not called) the
coroutine is alive, so that `C11_drains` applies. Missing: any failure (`C14_violated`). -/
theorem C14_no_failure_partial (h : List (DOp T)) (s : Drv T) (hr : Drv.init.run h = some s)
    (hf : ∀ o ∈ h, o ≠ .kill ∧ ∀ e, o ≠ .sendRaise e ∧ o ≠ .callbackRaise e) : alive s := by
  have : ∀ (h : List (DOp T)) (s0 : Drv T), alive s0 → s0.run h = some s →
      (∀ o ∈ h, o ≠ .kill ∧ ∀ e, o ≠ .sendRaise e ∧ o ≠ .callbackRaise e) → alive s := by
    intro h
    induction h with
    | nil => intro s0 ha hr _; simp only [Drv.run, Option.some.injEq] at hr; subst hr; exact ha
    | cons o r ih =>
      intro s0 ha hr hf
      simp only [Drv.run] at hr
      split at hr
      · cases hr
      · rename_i s1 h1
        refine ih s1 ?_ hr (fun o ho => hf o (by simp [ho]))
        have ho := hf o (by simp)
        cases o with
        | append it =>
          simp only [Drv.step, Option.some.injEq] at h1; subst h1
          unfold alive at ha ⊢
          simp only
          cases ht : s0.thread <;> simp_all
        | clear => simp only [Drv.step, Option.some.injEq] at h1; subst h1; exact ha
        | kill => exact absurd rfl ho.1
        | run => exact (progress_step s0 s1 .run trivial h1).2
        | sendDone => exact (progress_step s0 s1 .sendDone trivial h1).2
        | sendRaise e => exact absurd rfl (ho.2 e).1
        | callbackRaise e => exact absurd rfl (ho.2 e).2
        | send t => simp only [Drv.step, Option.some.injEq] at h1; subst h1; exact ha
        | sendReturn i =>
          simp only [Drv.step] at h1
          split at h1
          · simp only [Option.some.injEq] at h1; subst h1; exact ha
          · cases h1
  exact this h Drv.init (by simp [alive, Drv.init]) hr hf

/-! ### C15 -/

/-- C15 is false of the code, three concurrent callers: two waiters woken by one release both get
the lock. -/
theorem C15_violated_two_waiters :
    ∃ l, Lock.init.run [.acquire 0, .acquire 1, .acquire 2, .release 0, .resume 1, .resume 2] = some l ∧
      l.tasks 1 = .holding ∧ l.tasks 2 = .holding := ⟨_, rfl, rfl, rfl⟩

/-- C15 is false of the code, two callers: the releasing task starts its next operation before the
woken waiter runs. -/
theorem C15_violated_reacquire :
    ∃ l, Lock.init.run [.acquire 0, .acquire 1, .release 0, .acquire 0, .resume 1] = some l ∧
      l.tasks 0 = .holding ∧ l.tasks 1 = .holding := ⟨_, rfl, rfl, rfl⟩

/-- C15, proved part: mutual exclusion for any number of tasks when no release finds more than
one waiter and nobody tries to acquire between a release and the resumption of the woken waiter. -/
theorem C15_mutex_partial (h : List LockOp) (l : Lock) (hd : LockDisciplined Lock.init h) (hr : Lock.init.run h = some l)
    (u v : Nat) (hu : l.tasks u = .holding) (hv : l.tasks v = .holding) : u = v :=
  (lock_run_inv h Lock.init l (by
    refine ⟨fun _ => rfl, ?_, ?_, ?_⟩ <;> intros <;> simp_all [Lock.init]) hd hr).2.1 u v (.inl hu) (.inl hv)

/-- sequential use, and one waiter handed over, are disciplined -/
example : LockDisciplined Lock.init [.acquire 0, .acquire 1, .release 0, .resume 1, .release 1] := by
  refine ⟨by intro u; simp [Lock.init], ?_⟩
  intro l h; cases h
  refine ⟨?_, ?_⟩
  · intro u; simp only [Lock.setTask, Lock.init]; split <;> simp
  intro l h; cases h
  refine ⟨?_, ?_⟩
  · intro u v; simp only [Lock.setTask, Lock.init]
    intro hu hv
    have (w : Nat) (hw : (if w = 1 then LockTask.waiting else if w = 0 then .holding else .idle) = .waiting) : w = 1 := by
      split at hw
      · assumption
      · split at hw <;> cases hw
    rw [this u hu, this v hv]
  intro l h; cases h
  refine ⟨trivial, ?_⟩
  intro l h; cases h
  refine ⟨?_, fun _ _ => trivial⟩
  intro u v hu hv
  exfalso
  simp only [Lock.setTask] at hu
  split at hu
  · cases hu
  · split at hu
    · cases hu
    · simp [Lock.init] at hu

/-- C15: no waiter is lost: whenever the lock is free, nobody is asleep waiting for it. -/
theorem C15_no_lost_waiter (h : List LockOp) (l : Lock) (hr : Lock.init.run h = some l) (hb : l.busy = false) :
    ∀ u, l.tasks u ≠ .waiting := by
  have : ∀ (h : List LockOp) (l0 : Lock), (l0.busy = false → ∀ u, l0.tasks u ≠ .waiting) → l0.run h = some l →
      (l.busy = false → ∀ u, l.tasks u ≠ .waiting) := by
    intro h
    induction h with
    | nil => intro l0 hi hr; simp only [Lock.run, Option.some.injEq] at hr; subst hr; exact hi
    | cons o r ih =>
      intro l0 hi hr
      simp only [Lock.run] at hr
      split at hr
      · cases hr
      · rename_i l1 h1
        refine ih l1 ?_ hr
        cases o with
        | acquire t =>
          simp only [Lock.step] at h1
          split at h1
          · split at h1
            · rename_i hb
              simp only [Bool.and_eq_true] at hb
              simp only [Option.some.injEq] at h1; subst h1
              intro hf; simp [hb.1] at hf
            · split at h1
              · rename_i hb
                simp only [Option.some.injEq] at h1; subst h1
                intro hf; simp [hb] at hf
              · simp only [Option.some.injEq] at h1; subst h1
                intro hf; cases hf
          · cases h1
        | resume t =>
          simp only [Lock.step] at h1
          split at h1
          · simp only [Option.some.injEq] at h1; subst h1
            intro hf; cases hf
          · cases h1
        | release t =>
          simp only [Lock.step] at h1
          split at h1
          · simp only [Option.some.injEq] at h1; subst h1
            intro _ u
            simp only
            split
            · simp
            · split
              · simp
              · rename_i hx; exact hx
          · cases h1
  exact this h Lock.init (by intro _ u; simp [Lock.init]) hr hb

/-! ### C20 -/

/-- C20 is false of the code: a blocking `send` overlaps a queued transaction being sent. -/
theorem C20_violated : ∃ s, Drv.init.run [.append (exItem 1), .run, .send 2] = some s ∧ onBus s = 2 :=
  ⟨_, rfl, rfl⟩

/-- C20, proved part: if blocking sends are only made while the driver is idle with nothing queued, and
nothing is appended while one is in flight, at most one transaction is on the bus. -/
theorem C20_exclusive_partial (h : List (DOp T)) (s : Drv T) (hd : SendDisciplined Drv.init h)
    (hr : Drv.init.run h = some s) : onBus s ≤ 1 := by
  obtain ⟨h1, h2⟩ := run_sendInv h Drv.init s ⟨by simp [Drv.init], by simp [Drv.init]⟩ hd hr
  unfold onBus
  by_cases hz : s.direct = []
  · rw [hz]; simp; split <;> simp
  · have := (h2 hz).2
    split
    · rename_i it b ht; exact absurd ht (this it b)
    · omega

/-- without blocking sends at most one queued transaction is on the bus -/
theorem C20_queue_only (h : List (DOp T)) (s : Drv T) (hn : ∀ t, .send t ∉ h) (hr : Drv.init.run h = some s) : onBus s ≤ 1 := by
  have : ∀ (h : List (DOp T)) (s0 : Drv T), s0.direct = [] → s0.run h = some s → (∀ t, .send t ∉ h) → s.direct = [] := by
    intro h
    induction h with
    | nil => intro s0 h0 hr _; simp only [Drv.run, Option.some.injEq] at hr; subst hr; exact h0
    | cons o r ih =>
      intro s0 h0 hr hn
      simp only [Drv.run] at hr
      split at hr
      · cases hr
      · rename_i s1 h1
        refine ih s1 ?_ hr (fun t ht => hn t (by simp [ht]))
        have houter (x : Drv T) : x.outer.direct = x.direct := by rw [outer_def]; split <;> rfl
        have hinner (x : Drv T) : x.inner.direct = x.direct := by
          unfold Drv.inner; split
          · exact houter x
          · rfl
        cases o with
        | send t => exact absurd (by simp) (hn t)
        | sendReturn i => simp [Drv.step, h0] at h1
        | append it => simp only [Drv.step, Option.some.injEq] at h1; subst h1; exact h0
        | clear => simp only [Drv.step, Option.some.injEq] at h1; subst h1; exact h0
        | kill => simp only [Drv.step, Option.some.injEq] at h1; subst h1; exact h0
        | run =>
          simp only [Drv.step] at h1
          split at h1
          · simp only [Option.some.injEq] at h1; subst h1; rw [houter, h0]
          · simp only [Option.some.injEq] at h1; subst h1; rw [houter, h0]
          · cases h1
        | sendDone =>
          simp only [Drv.step] at h1
          split at h1
          · simp only [Option.some.injEq] at h1; subst h1; rw [hinner]; exact h0
          · cases h1
        | sendRaise e =>
          simp only [Drv.step] at h1
          split at h1
          · simp only [Option.some.injEq] at h1; subst h1; exact h0
          · cases h1
        | callbackRaise e =>
          simp only [Drv.step] at h1
          split at h1
          · split at h1
            · simp only [Option.some.injEq] at h1; subst h1; exact h0
            · cases h1
          · cases h1
  have hz := this h Drv.init rfl hr hn
  unfold onBus
  rw [hz]; simp; split <;> simp

example : SendDisciplined (T := Nat) Drv.init [.run, .send 5, .sendReturn 0, .append (exItem 1), .run] := by
  refine ⟨trivial, ?_⟩
  intro s h; cases h
  refine ⟨⟨rfl, by intro it b; simp [Drv.init, outer_def], rfl⟩, ?_⟩
  intro s h; cases h
  refine ⟨trivial, ?_⟩
  intro s h; cases h
  refine ⟨rfl, fun s h => ⟨trivial, fun _ _ => trivial⟩⟩

end CocotbBus
