import Verif.Spec.Driver

/-! # Lemmas about the driver queue and lock -/

namespace CocotbBus
open Spec
variable {T : Type}

theorem Drv.run_append (h1 h2 : List (DOp T)) (s : Drv T) :
    s.run (h1 ++ h2) = (s.run h1).bind (fun s' => s'.run h2) := by
  induction h1 generalizing s with
  | nil => rfl
  | cons o r ih =>
    simp only [List.cons_append, Drv.run]
    cases s.step o with
    | none => rfl
    | some s' => exact ih s'

/-- induction principle: an invariant of all steps holds of all runs -/
theorem Drv.run_inv (P : Drv T → List (DOp T) → Prop) (hstep : ∀ s h o s', P s h → s.step o = some s' → P s' (h ++ [o]))
    (h : List (DOp T)) : ∀ (s : Drv T) (h0 : List (DOp T)) (s' : Drv T), P s h0 → s.run h = some s' → P s' (h0 ++ h) := by
  induction h with
  | nil => intro s h0 s' hp hr; simp only [Drv.run, Option.some.injEq] at hr; subst hr; simpa using hp
  | cons o r ih =>
    intro s h0 s' hp hr
    simp only [Drv.run] at hr
    split at hr
    · cases hr
    · rename_i s1 h1
      have := ih s1 (h0 ++ [o]) s' (hstep _ _ _ _ hp h1) hr
      simpa using this

theorem started_append (a b : List (DEv T)) : started (a ++ b) = started a ++ started b := by
  induction a with
  | nil => rfl
  | cons e r ih => cases e <;> simp [started, ih]

theorem started_notify (it : Item T) : started (notify it) = [] := by
  unfold notify; cases it.hasEvent <;> cases it.hasCb <;> rfl

theorem appended_append (a b : List (DOp T)) : appended (a ++ b) = appended a ++ appended b := by
  induction a with
  | nil => rfl
  | cons e r ih => cases e <;> simp [appended, ih]

theorem outer_def (s : Drv T) : s.outer = match s.queue with
    | [] => { s with pending := false, thread := .waiting, log := s.log ++ [.idle] }
    | it :: q => { s with queue := q, thread := .sending it true, log := s.log ++ [.start it true] } := rfl

theorem outer_stream (s : Drv T) :
    (started s.outer.log).map Prod.fst ++ s.outer.queue = (started s.log).map Prod.fst ++ s.queue := by
  simp only [outer_def]
  split <;> rename_i h <;> simp [started_append, started, h]

theorem inner_stream (s : Drv T) :
    (started s.inner.log).map Prod.fst ++ s.inner.queue = (started s.log).map Prod.fst ++ s.queue := by
  unfold Drv.inner
  split
  · rename_i h; rw [outer_stream]
  · rename_i h; simp [started_append, started, h]

theorem step_stream (s : Drv T) (o : DOp T) (s' : Drv T) (h : s.step o = some s') (hc : o ≠ .clear) :
    (started s'.log).map Prod.fst ++ s'.queue = (started s.log).map Prod.fst ++ s.queue ++ appended [o] := by
  cases o with
  | append it => simp only [Drv.step, Option.some.injEq] at h; subst h; simp [appended]
  | clear => exact absurd rfl hc
  | kill => simp only [Drv.step, Option.some.injEq] at h; subst h; simp [appended]
  | run =>
    simp only [Drv.step] at h
    split at h
    · simp only [Option.some.injEq] at h; subst h; simp [appended, outer_stream]
    · simp only [Option.some.injEq] at h; subst h; simp [appended, outer_stream]
    · cases h
  | sendDone =>
    simp only [Drv.step] at h
    split at h
    · simp only [Option.some.injEq] at h; subst h
      simp [appended, inner_stream, started_append, started_notify]
    · cases h
  | sendRaise e =>
    simp only [Drv.step] at h
    split at h
    · simp only [Option.some.injEq] at h; subst h; simp [appended]
    · cases h
  | callbackRaise e =>
    simp only [Drv.step] at h
    split at h
    · split at h
      · simp only [Option.some.injEq] at h; subst h; simp [appended, started_append, started_notify]
      · cases h
    · cases h
  | send t => simp only [Drv.step, Option.some.injEq] at h; subst h; simp [appended]
  | sendReturn i =>
    simp only [Drv.step] at h
    split at h
    · simp only [Option.some.injEq] at h; subst h; simp [appended]
    · cases h

theorem run_stream (h : List (DOp T)) (hc : .clear ∉ h) (s s' : Drv T) (hr : s.run h = some s') :
    (started s'.log).map Prod.fst ++ s'.queue = (started s.log).map Prod.fst ++ s.queue ++ appended h := by
  induction h generalizing s with
  | nil => simp only [Drv.run, Option.some.injEq] at hr; subst hr; simp [appended]
  | cons o r ih =>
    simp only [Drv.run] at hr
    split at hr
    · cases hr
    · rename_i s1 h1
      simp only [List.mem_cons, not_or] at hc
      rw [ih hc.2 s1 hr, step_stream s o s1 h1 (fun e => hc.1 e.symm)]
      have : appended (o :: r) = appended [o] ++ appended r := appended_append [o] r
      rw [this]
      simp

/-! ### wake-ups -/

/-- the coroutine sleeps only on an empty queue -/
def NoSleep (s : Drv T) : Prop := s.thread = .waiting → s.queue = []

theorem outer_nosleep (s : Drv T) : NoSleep s.outer := by
  unfold NoSleep
  simp only [outer_def]
  split
  · rename_i h; intro _; exact h
  · intro h; cases h

theorem inner_nosleep (s : Drv T) : NoSleep s.inner := by
  unfold Drv.inner
  split
  · exact outer_nosleep s
  · intro h; cases h

theorem step_nosleep (s : Drv T) (o : DOp T) (s' : Drv T) (hn : NoSleep s) (h : s.step o = some s') : NoSleep s' := by
  unfold NoSleep at *
  cases o with
  | append it =>
    simp only [Drv.step, Option.some.injEq] at h; subst h
    simp only
    intro ht
    split at ht
    · cases ht
    · rename_i hx; exact absurd ht hx
  | clear => simp only [Drv.step, Option.some.injEq] at h; subst h; intro _; rfl
  | kill =>
    simp only [Drv.step, Option.some.injEq] at h; subst h
    simp only
    intro ht
    split at ht <;> cases ht
  | run =>
    simp only [Drv.step] at h
    split at h
    · simp only [Option.some.injEq] at h; subst h; exact outer_nosleep s
    · simp only [Option.some.injEq] at h; subst h; exact outer_nosleep s
    · cases h
  | sendDone =>
    simp only [Drv.step] at h
    split at h
    · simp only [Option.some.injEq] at h; subst h; exact inner_nosleep _
    · cases h
  | sendRaise e =>
    simp only [Drv.step] at h
    split at h
    · simp only [Option.some.injEq] at h; subst h; intro ht; cases ht
    · cases h
  | callbackRaise e =>
    simp only [Drv.step] at h
    split at h
    · split at h
      · simp only [Option.some.injEq] at h; subst h; intro ht; cases ht
      · cases h
    · cases h
  | send t => simp only [Drv.step, Option.some.injEq] at h; subst h; exact hn
  | sendReturn i =>
    simp only [Drv.step] at h
    split at h
    · simp only [Option.some.injEq] at h; subst h; exact hn
    · cases h

theorem run_nosleep (h : List (DOp T)) (s s' : Drv T) (hn : NoSleep s) (hr : s.run h = some s') : NoSleep s' :=
  Drv.run_inv (fun s _ => NoSleep s) (fun s _ o s' hp hs => step_nosleep s o s' hp hs) h s [] s' hn hr

/-! ### progress -/

/-- remaining scheduler work -/
def work (s : Drv T) : Nat :=
  s.queue.length + (match s.thread with
    | .notStarted => 1
    | .woken => 1
    | .sending _ _ => 1
    | _ => 0)

theorem outer_work (s : Drv T) : work s.outer = s.queue.length := by
  unfold work
  simp only [outer_def]
  split <;> rename_i h <;> simp [h]


theorem inner_work (s : Drv T) : work s.inner = s.queue.length := by
  unfold Drv.inner
  split
  · exact outer_work s
  · rename_i h; simp [work, h]

theorem outer_alive (s : Drv T) : alive s.outer := by
  unfold alive
  simp only [outer_def]
  split <;> simp

theorem inner_alive (s : Drv T) : alive s.inner := by
  unfold Drv.inner
  split
  · exact outer_alive s
  · simp [alive]

theorem progress_step (s s' : Drv T) (o : DOp T) (ho : progress o) (h : s.step o = some s') :
    work s' + 1 = work s ∧ alive s' := by
  cases o with
  | run =>
    simp only [Drv.step] at h
    split at h
    · rename_i ht
      simp only [Option.some.injEq] at h; subst h
      exact ⟨by rw [outer_work]; simp [work, ht], outer_alive s⟩
    · rename_i ht
      simp only [Option.some.injEq] at h; subst h
      exact ⟨by rw [outer_work]; simp [work, ht], outer_alive s⟩
    · cases h
  | sendDone =>
    simp only [Drv.step] at h
    split at h
    · rename_i ht
      simp only [Option.some.injEq] at h; subst h
      exact ⟨by rw [inner_work]; simp [work, ht], inner_alive _⟩
    · cases h
  | append it => exact ho.elim
  | clear => exact ho.elim
  | kill => exact ho.elim
  | sendRaise e => exact ho.elim
  | callbackRaise e => exact ho.elim
  | send t => exact ho.elim
  | sendReturn i => exact ho.elim

theorem progress_possible (s : Drv T) (ha : alive s) (hw : s.thread ≠ .waiting) :
    ∃ o s', progress o ∧ s.step o = some s' := by
  cases ht : s.thread with
  | notStarted => exact ⟨.run, s.outer, trivial, by simp [Drv.step, ht]⟩
  | waiting => exact absurd ht hw
  | woken => exact ⟨.run, s.outer, trivial, by simp [Drv.step, ht]⟩
  | sending it b => exact ⟨.sendDone, ({ s with log := s.log ++ notify it }).inner, trivial, by simp [Drv.step, ht]⟩
  | dead e => exact absurd ht (ha.2 e)
  | killed => exact absurd ht ha.1

/-! ### sync flags -/

/-- final `fresh` flag of a log -/
def freshAfter : Bool → List (DEv T) → Bool
  | b, [] => b
  | _, .idle :: r => freshAfter true r
  | _, .start _ _ :: r => freshAfter false r
  | b, _ :: r => freshAfter b r

theorem syncOk_append (b : Bool) (l m : List (DEv T)) :
    SyncOk b (l ++ m) ↔ SyncOk b l ∧ SyncOk (freshAfter b l) m := by
  induction l generalizing b with
  | nil => simp [SyncOk, freshAfter]
  | cons e r ih => cases e <;> simp [SyncOk, freshAfter, ih, and_assoc]

theorem freshAfter_append (b : Bool) (l m : List (DEv T)) :
    freshAfter b (l ++ m) = freshAfter (freshAfter b l) m := by
  induction l generalizing b with
  | nil => rfl
  | cons e r ih => cases e <;> simp [freshAfter, ih]

theorem notify_sync (it : Item T) (b : Bool) : SyncOk b (notify it) ∧ freshAfter b (notify it) = b := by
  unfold notify; cases it.hasEvent <;> cases it.hasCb <;> simp [SyncOk, freshAfter]

/-- invariant: the flags so far are right, and the current freshness matches the coroutine state -/
def SyncInv (s : Drv T) : Prop :=
  SyncOk true s.log ∧
  (match s.thread with
    | .notStarted => freshAfter true s.log = true
    | .waiting => freshAfter true s.log = true
    | .woken => freshAfter true s.log = true
    | .sending _ _ => freshAfter true s.log = false
    | _ => True)

theorem outer_sync (s : Drv T) (h1 : SyncOk true s.log) (h2 : freshAfter true s.log = true ∨ s.queue = []) :
    SyncInv s.outer := by
  unfold SyncInv
  simp only [outer_def]
  split
  · simp [syncOk_append, h1, SyncOk, freshAfter_append, freshAfter]
  · rename_i h
    have : freshAfter true s.log = true := h2.resolve_right (by simp [h])
    simp [syncOk_append, h1, SyncOk, freshAfter_append, freshAfter, this]

theorem step_sync (s : Drv T) (o : DOp T) (s' : Drv T) (hi : SyncInv s) (h : s.step o = some s') : SyncInv s' := by
  obtain ⟨h1, h2⟩ := hi
  cases o with
  | append it =>
    simp only [Drv.step, Option.some.injEq] at h; subst h
    refine ⟨h1, ?_⟩
    cases ht : s.thread <;> simp_all
  | clear => simp only [Drv.step, Option.some.injEq] at h; subst h; exact ⟨h1, h2⟩
  | kill =>
    simp only [Drv.step, Option.some.injEq] at h; subst h
    refine ⟨h1, ?_⟩
    cases ht : s.thread <;> simp_all
  | run =>
    simp only [Drv.step] at h
    split at h
    · rename_i ht
      simp only [Option.some.injEq] at h; subst h
      rw [ht] at h2
      exact outer_sync s h1 (.inl h2)
    · rename_i ht
      simp only [Option.some.injEq] at h; subst h
      rw [ht] at h2
      exact outer_sync s h1 (.inl h2)
    · cases h
  | sendDone =>
    simp only [Drv.step] at h
    split at h
    · rename_i it b ht
      simp only [Option.some.injEq] at h; subst h
      rw [ht] at h2
      have hs : SyncOk true (s.log ++ notify it) := by
        rw [syncOk_append]; exact ⟨h1, (notify_sync it _).1⟩
      have hf : freshAfter true (s.log ++ notify it) = false := by
        rw [freshAfter_append, h2]; exact (notify_sync it _).2
      unfold Drv.inner
      split
      · rename_i hq
        exact outer_sync _ hs (.inr hq)
      · simp only [SyncInv]
        rw [syncOk_append (l := s.log ++ notify it), hf]
        refine ⟨⟨hs, by simp [SyncOk]⟩, ?_⟩
        rw [freshAfter_append]; rfl
    · cases h
  | sendRaise e =>
    simp only [Drv.step] at h
    split at h
    · simp only [Option.some.injEq] at h; subst h; exact ⟨h1, trivial⟩
    · cases h
  | callbackRaise e =>
    simp only [Drv.step] at h
    split at h
    · rename_i it b ht
      split at h
      · simp only [Option.some.injEq] at h; subst h
        exact ⟨by simp only; rw [syncOk_append]; exact ⟨h1, (notify_sync it _).1⟩, trivial⟩
      · cases h
    · cases h
  | send t => simp only [Drv.step, Option.some.injEq] at h; subst h; exact ⟨h1, h2⟩
  | sendReturn i =>
    simp only [Drv.step] at h
    split at h
    · simp only [Option.some.injEq] at h; subst h; exact ⟨h1, h2⟩
    · cases h

/-! ### notifications -/

theorem visible_append (a b : List (DEv T)) : visible (a ++ b) = visible a ++ visible b := by
  simp [visible]

theorem visible_notify (it : Item T) : visible (notify it) = notify it := by
  unfold notify visible; cases it.hasEvent <;> cases it.hasCb <;> rfl

theorem completions_append (a b : List (DOp T)) : completions (a ++ b) = completions a + completions b := by
  induction a with
  | nil => simp [completions]
  | cons e r ih => cases e <;> simp [completions, ih] <;> omega

/-- invariant: the log is a sequence of complete records followed by what the coroutine is doing -/
def LogInv (s : Drv T) (h : List (DOp T)) : Prop :=
  ∃ cs : List (Item T × Bool), cs.length = completions h ∧
    (match s.thread with
      | .sending it b => visible s.log = cs.flatMap fullRecord ++ [.start it b]
      | .dead _ => visible s.log = cs.flatMap fullRecord ∨ ∃ it b, visible s.log = cs.flatMap fullRecord ++ [.start it b]
      | .killed => visible s.log = cs.flatMap fullRecord ∨ ∃ it b, visible s.log = cs.flatMap fullRecord ++ [.start it b]
      | _ => visible s.log = cs.flatMap fullRecord)

theorem outer_log (s : Drv T) (h : List (DOp T)) (cs : List (Item T × Bool)) (hc : cs.length = completions h)
    (hv : visible s.log = cs.flatMap fullRecord) : LogInv s.outer h := by
  refine ⟨cs, hc, ?_⟩
  simp only [outer_def]
  cases hq : s.queue with
  | nil => simp only [visible_append, hv]; simp [visible]
  | cons it q => simp only [visible_append, hv]; simp [visible]

theorem fullRecord_eq (it : Item T) (b : Bool) : fullRecord (it, b) = .start it b :: notify it := rfl

theorem step_log (s : Drv T) (h0 : List (DOp T)) (o : DOp T) (s' : Drv T) (hi : LogInv s h0) (h : s.step o = some s') :
    LogInv s' (h0 ++ [o]) := by
  obtain ⟨cs, h1, h2⟩ := hi
  have hcz : o ≠ .sendDone → (∀ e, o ≠ .callbackRaise e) → cs.length = completions (h0 ++ [o]) := by
    intro a b
    rw [completions_append, h1]
    cases o <;> simp_all [completions]
  cases o with
  | append it =>
    simp only [Drv.step, Option.some.injEq] at h; subst h
    refine ⟨cs, hcz (by simp) (by simp), ?_⟩
    cases ht : s.thread <;> simp_all
  | clear =>
    simp only [Drv.step, Option.some.injEq] at h; subst h; exact ⟨cs, hcz (by simp) (by simp), h2⟩
  | kill =>
    simp only [Drv.step, Option.some.injEq] at h; subst h
    refine ⟨cs, hcz (by simp) (by simp), ?_⟩
    cases ht : s.thread with
    | sending it b => rw [ht] at h2; exact .inr ⟨it, b, h2⟩
    | dead e => rw [ht] at h2; exact h2
    | killed => rw [ht] at h2; exact h2
    | notStarted => rw [ht] at h2; exact .inl h2
    | waiting => rw [ht] at h2; exact .inl h2
    | woken => rw [ht] at h2; exact .inl h2
  | run =>
    simp only [Drv.step] at h
    split at h
    · rename_i ht
      simp only [Option.some.injEq] at h; subst h
      rw [ht] at h2
      exact outer_log s _ cs (hcz (by simp) (by simp)) h2
    · rename_i ht
      simp only [Option.some.injEq] at h; subst h
      rw [ht] at h2
      exact outer_log s _ cs (hcz (by simp) (by simp)) h2
    · cases h
  | sendDone =>
    simp only [Drv.step] at h
    split at h
    · rename_i it b ht
      simp only [Option.some.injEq] at h; subst h
      rw [ht] at h2
      have hv : visible (s.log ++ notify it) = (cs ++ [(it, b)]).flatMap fullRecord := by
        rw [visible_append, visible_notify, h2]
        simp [fullRecord_eq]
      have hl : (cs ++ [(it, b)]).length = completions (h0 ++ [.sendDone]) := by
        rw [completions_append]; simp [completions, h1]
      unfold Drv.inner
      split
      · exact outer_log _ _ _ hl hv
      · refine ⟨_, hl, ?_⟩
        simp only
        rw [visible_append, hv]
        simp [visible]
    · cases h
  | sendRaise e =>
    simp only [Drv.step] at h
    split at h
    · rename_i it b ht
      simp only [Option.some.injEq] at h; subst h
      rw [ht] at h2
      exact ⟨cs, hcz (by simp) (by simp), .inr ⟨it, b, h2⟩⟩
    · cases h
  | callbackRaise e =>
    simp only [Drv.step] at h
    split at h
    · rename_i it b ht
      split at h
      · simp only [Option.some.injEq] at h; subst h
        rw [ht] at h2
        refine ⟨cs ++ [(it, b)], ?_, .inl ?_⟩
        · rw [completions_append]; simp [completions, h1]
        · rw [visible_append, visible_notify, h2]
          simp [fullRecord_eq]
      · cases h
    · cases h
  | send t =>
    simp only [Drv.step, Option.some.injEq] at h; subst h; exact ⟨cs, hcz (by simp) (by simp), h2⟩
  | sendReturn i =>
    simp only [Drv.step] at h
    split at h
    · simp only [Option.some.injEq] at h; subst h; exact ⟨cs, hcz (by simp) (by simp), h2⟩
    · cases h

/-! ### after death -/

theorem step_dead (s : Drv T) (o : DOp T) (s' : Drv T) (hd : ∃ e, s.thread = .dead e) (h : s.step o = some s') :
    (∃ e, s'.thread = .dead e) ∧ s'.log = s.log := by
  obtain ⟨e, hd⟩ := hd
  cases o with
  | append it => simp only [Drv.step, Option.some.injEq, hd] at h; subst h; exact ⟨⟨e, rfl⟩, rfl⟩
  | clear => simp only [Drv.step, Option.some.injEq] at h; subst h; exact ⟨⟨e, hd⟩, rfl⟩
  | kill => simp only [Drv.step, Option.some.injEq, hd] at h; subst h; exact ⟨⟨e, rfl⟩, rfl⟩
  | run => simp [Drv.step, hd] at h
  | sendDone => simp [Drv.step, hd] at h
  | sendRaise e => simp [Drv.step, hd] at h
  | callbackRaise e => simp [Drv.step, hd] at h
  | send t => simp only [Drv.step, Option.some.injEq] at h; subst h; exact ⟨⟨e, hd⟩, rfl⟩
  | sendReturn i =>
    simp only [Drv.step] at h
    split at h
    · simp only [Option.some.injEq] at h; subst h; exact ⟨⟨e, hd⟩, rfl⟩
    · cases h

theorem run_dead (h : List (DOp T)) (s s' : Drv T) (hd : ∃ e, s.thread = .dead e) (hr : s.run h = some s') :
    (∃ e, s'.thread = .dead e) ∧ s'.log = s.log := by
  have := Drv.run_inv (fun x _ => (∃ e, x.thread = .dead e) ∧ x.log = s.log)
    (fun x _ o x' hp hs => by
      obtain ⟨a, b⟩ := step_dead x o x' hp.1 hs
      exact ⟨a, b.trans hp.2⟩) h s [] s' ⟨hd, rfl⟩ hr
  exact this

/-! ### overlap -/

def SendInv (s : Drv T) : Prop :=
  s.direct.length ≤ 1 ∧ (s.direct ≠ [] → s.queue = [] ∧ ∀ it b, s.thread ≠ .sending it b)

theorem outer_sendInv (s : Drv T) (h : SendInv s) : SendInv s.outer := by
  simp only [outer_def]
  split
  · exact ⟨h.1, fun hd => ⟨(h.2 hd).1, by simp⟩⟩
  · rename_i hq
    refine ⟨h.1, fun hd => ?_⟩
    have := (h.2 hd).1
    rw [hq] at this; cases this

theorem inner_sendInv (s : Drv T) (hl : s.direct = []) : SendInv s.inner := by
  unfold Drv.inner
  split
  · exact outer_sendInv s ⟨by simp [hl], fun h => absurd hl h⟩
  · exact ⟨by simp [hl], fun h => absurd hl h⟩

theorem run_sendInv (h : List (DOp T)) (s s' : Drv T) (hi : SendInv s) (hd : SendDisciplined s h)
    (hr : s.run h = some s') : SendInv s' := by
  induction h generalizing s with
  | nil => simp only [Drv.run, Option.some.injEq] at hr; subst hr; exact hi
  | cons o r ih =>
    simp only [Drv.run] at hr
    split at hr
    · cases hr
    · rename_i s1 h1
      obtain ⟨d1, d2⟩ := hd
      refine ih s1 ?_ (d2 s1 h1) hr
      cases o with
      | append it =>
        simp only at d1
        simp only [Drv.step, Option.some.injEq] at h1; subst h1
        exact ⟨by simp [d1], fun h => absurd d1 h⟩
      | clear =>
        simp only [Drv.step, Option.some.injEq] at h1; subst h1
        exact ⟨hi.1, fun h => ⟨rfl, (hi.2 h).2⟩⟩
      | kill =>
        simp only [Drv.step, Option.some.injEq] at h1; subst h1
        refine ⟨hi.1, fun h => ⟨(hi.2 h).1, ?_⟩⟩
        intro it b
        simp only
        split <;> simp
      | run =>
        simp only [Drv.step] at h1
        split at h1
        · simp only [Option.some.injEq] at h1; subst h1; exact outer_sendInv s hi
        · simp only [Option.some.injEq] at h1; subst h1; exact outer_sendInv s hi
        · cases h1
      | sendDone =>
        simp only [Drv.step] at h1
        split at h1
        · rename_i it b ht
          simp only [Option.some.injEq] at h1; subst h1
          apply inner_sendInv
          by_cases hz : s.direct = []
          · exact hz
          · exact absurd ht ((hi.2 hz).2 it b)
        · cases h1
      | sendRaise e =>
        simp only [Drv.step] at h1
        split at h1
        · simp only [Option.some.injEq] at h1; subst h1
          exact ⟨hi.1, fun h => ⟨(hi.2 h).1, by simp⟩⟩
        · cases h1
      | callbackRaise e =>
        simp only [Drv.step] at h1
        split at h1
        · split at h1
          · simp only [Option.some.injEq] at h1; subst h1
            exact ⟨hi.1, fun h => ⟨(hi.2 h).1, by simp⟩⟩
          · cases h1
        · cases h1
      | send t =>
        simp only at d1
        simp only [Drv.step, Option.some.injEq] at h1; subst h1
        exact ⟨by simp [d1.2.2], fun _ => ⟨d1.1, d1.2.1⟩⟩
      | sendReturn i =>
        simp only [Drv.step] at h1
        split at h1
        · simp only [Option.some.injEq] at h1; subst h1
          refine ⟨Nat.le_trans (List.length_eraseIdx_le ..) hi.1, fun h => hi.2 ?_⟩
          intro e; apply h; simp [e]
        · cases h1

/-! ### lock -/

def LockInv (l : Lock) : Prop :=
  (l.busy = true → l.eventSet = false) ∧
  (∀ u v, (l.tasks u = .holding ∨ l.tasks u = .woken) → (l.tasks v = .holding ∨ l.tasks v = .woken) → u = v) ∧
  (∀ u, l.tasks u = .holding → l.busy = true) ∧
  (∀ u, l.tasks u = .woken → l.busy = false)

theorem lock_step_inv (l l' : Lock) (o : LockOp) (hi : LockInv l)
    (hd : match o with
      | .acquire _ => ∀ u, l.tasks u ≠ .woken
      | .release _ => ∀ u v, l.tasks u = .waiting → l.tasks v = .waiting → u = v
      | .resume _ => True)
    (h : l.step o = some l') : LockInv l' := by
  obtain ⟨h1, h2, h3, h4⟩ := hi
  cases o with
  | acquire t =>
    simp only at hd
    simp only [Lock.step] at h
    split at h
    · rename_i ht
      split at h
      · rename_i hb
        simp only [Bool.and_eq_true, Bool.not_eq_eq_eq_not, Bool.not_true] at hb
        simp only [Option.some.injEq] at h; subst h
        have hn (u : Nat) (x : LockTask) (hx : x ≠ .waiting) (hu : l.setTask t .waiting u = x) : l.tasks u = x := by
          unfold Lock.setTask at hu
          split at hu
          · exact absurd hu.symm hx
          · exact hu
        refine ⟨h1, ?_, ?_, ?_⟩
        · intro u v hu hv
          exact h2 u v (hu.imp (hn u _ (by simp)) (hn u _ (by simp))) (hv.imp (hn v _ (by simp)) (hn v _ (by simp)))
        · intro u hu; exact h3 u (hn u _ (by simp) hu)
        · intro u hu; exact h4 u (hn u _ (by simp) hu)
      · rename_i hb
        split at h
        · rename_i hb2
          exact absurd (h1 hb2) (by simpa [hb2] using hb)
        · rename_i hb2
          simp only [Option.some.injEq] at h; subst h
          have hnone (u : Nat) (hu : l.setTask t .holding u = .holding ∨ l.setTask t .holding u = .woken) : u = t := by
            unfold Lock.setTask at hu
            split at hu
            · assumption
            · rcases hu with hu | hu
              · exact absurd (h3 u hu) hb2
              · exact absurd hu (hd u)
          refine ⟨fun _ => rfl, fun u v hu hv => (hnone u hu).trans (hnone v hv).symm, fun _ _ => rfl, ?_⟩
          intro u hu
          have := hnone u (.inr hu)
          subst this
          simp [Lock.setTask] at hu
    · cases h
  | resume t =>
    simp only [Lock.step] at h
    split at h
    · rename_i ht
      simp only [Option.some.injEq] at h; subst h
      have hnone (u : Nat) (hu : l.setTask t .holding u = .holding ∨ l.setTask t .holding u = .woken) : u = t := by
        unfold Lock.setTask at hu
        split at hu
        · assumption
        · exact h2 u t hu (.inr ht)
      refine ⟨fun _ => rfl, fun u v hu hv => (hnone u hu).trans (hnone v hv).symm, fun _ _ => rfl, ?_⟩
      intro u hu
      have := hnone u (.inr hu)
      subst this
      simp [Lock.setTask] at hu
    · cases h
  | release t =>
    simp only at hd
    simp only [Lock.step] at h
    split at h
    · rename_i ht
      simp only [Option.some.injEq] at h; subst h
      have key (u : Nat) : (if u = t then LockTask.idle else match l.tasks u with
               | .waiting => .woken
               | x => x) = .woken → l.tasks u = .waiting := by
        intro hu
        split at hu
        · cases hu
        · rename_i hne
          split at hu
          · assumption
          · exact absurd (h2 u t (.inr hu) (.inl ht)) hne
      have keyh (u : Nat) : (if u = t then LockTask.idle else match l.tasks u with
               | .waiting => .woken
               | x => x) ≠ .holding := by
        intro hu
        split at hu
        · cases hu
        · rename_i hne
          split at hu
          · cases hu
          · exact hne (h2 u t (.inl hu) (.inl ht))
      refine ⟨(fun h => absurd h (by simp)), ?_, fun u hu => absurd hu (keyh u), fun _ _ => rfl⟩
      intro u v hu hv
      exact hd u v (key u (hu.resolve_left (keyh u))) (key v (hv.resolve_left (keyh v)))
    · cases h

theorem lock_run_inv (h : List LockOp) (l l' : Lock) (hi : LockInv l) (hd : LockDisciplined l h)
    (hr : l.run h = some l') : LockInv l' := by
  induction h generalizing l with
  | nil => simp only [Lock.run, Option.some.injEq] at hr; subst hr; exact hi
  | cons o r ih =>
    simp only [Lock.run] at hr
    split at hr
    · cases hr
    · rename_i l1 h1
      exact ih l1 (lock_step_inv l l1 o hi hd.1 h1) (hd.2 l1 h1) hr

end CocotbBus
