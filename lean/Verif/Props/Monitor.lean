import Verif.Proof.Monitor
import Mathlib.Data.List.Induction

/-! # Properties C21–C23: monitors -/

namespace CocotbBus
open Spec
variable {T σ : Type}

/-! ### C21 -/

/-- C21: for every history of receptions and callback registrations on a fresh monitor (with or
without an event) in which no callback raises: the callbacks are invoked exactly as specified
(every transaction, all callbacks registered so far, in registration order), so the i-th callback
sees exactly the transactions received since it was registered, in order; the queue holds exactly
the transactions received while there was no callback; the counter counts all of them; the event is
set once per transaction with that transaction. -/
theorem C21_delivery (h : List (MonOp T σ)) (hn : NoRaise h) (ev : Bool) (s : σ) :
    ∃ m' s' log, play h { hasEvent := ev } (s, []) = (m', (s', log), none) ∧
      log = invocations 0 h ∧
      (∀ i, (log.filter (fun p => p.1 = i)).map Prod.snd = afterRegistration h i) ∧
      m'.received = (transactions h).length ∧
      m'.len = (beforeCallbacks h).length ∧
      (∀ i, m'.getItem i = match (beforeCallbacks h)[i]? with
        | some t => .ok t
        | none => .error .indexError) ∧
      m'.eventSets = (if ev then transactions h else []) := by
  obtain ⟨m', s', h1, h2, h3, h4, h5⟩ := play_spec h hn [] (by simp) ({ hasEvent := ev } : Monitor T _) rfl s []
  refine ⟨m', s', _, h1, by simp, ?_, by simpa using h2, ?_, ?_, by simpa using h5⟩
  · intro i
    have := invocations_filter 0 i h
    simpa using this
  · simp [Monitor.len, h3]
  · intro i
    simp only [Monitor.getItem, h3, List.isEmpty_nil, if_true, List.nil_append]
    rfl

/-- C21, the two extreme cases: a callback registered before anything is received sees the whole
received sequence and the queue stays empty; without callbacks the queue is the received sequence. -/
theorem C21_first_callback (c : Callback T σ) (ts : List T) (hc : ∀ t w, (c t w).2 = none) (s : σ) :
    ∃ m' s' log, play (.add c :: ts.map .recv) {} (s, []) = (m', (s', log), none) ∧
      log = ts.map (fun t => (0, t)) ∧ m'.len = 0 ∧ m'.received = ts.length := by
  have hn : NoRaise (MonOp.add c :: ts.map MonOp.recv) := by
    intro c' hc'
    simp at hc'
    subst hc'
    exact hc
  have htr : ∀ ts : List T, transactions (σ := σ) (ts.map .recv) = ts := by
    intro ts; induction ts <;> simp_all [transactions]
  have hinv : ∀ ts : List T, invocations (σ := σ) 1 (ts.map .recv) = ts.map (fun t => (0, t)) := by
    intro ts; induction ts <;> simp_all [invocations, List.range_succ]
  obtain ⟨m', s', log, h1, h2, -, h3, h4, -⟩ := C21_delivery _ hn false s
  refine ⟨m', s', log, h1, ?_, ?_, ?_⟩
  · rw [h2]; exact hinv ts
  · rw [h4]; rfl
  · rw [h3]; simp [transactions, htr]

theorem C21_no_callback (ts : List T) (s : σ) :
    ∃ m' s' log, play (ts.map .recv) ({} : Monitor T (σ × List (Nat × T))) (s, []) = (m', (s', log), none) ∧
      m'.queue = ts ∧ m'.received = ts.length := by
  have hn : NoRaise (ts.map (MonOp.recv (σ := σ))) := by
    intro c' hc'
    simp at hc'
  have htr : ∀ ts : List T, transactions (σ := σ) (ts.map .recv) = ts := by
    intro ts; induction ts <;> simp_all [transactions]
  have hbc : ∀ ts : List T, beforeCallbacks (σ := σ) (ts.map .recv) = ts := by
    intro ts; induction ts <;> simp_all [beforeCallbacks]
  obtain ⟨m', s', h1, h2, h3, -⟩ := play_spec _ hn [] (by simp) ({} : Monitor T (σ × List (Nat × T))) rfl s []
  exact ⟨m', s', _, h1, by rw [h3]; simp [hbc], by rw [h2]; simp [htr]⟩

/-- non-vacuity: a history with two callbacks registered at different times -/
example : NoRaise ([.recv 1, .add (fun t w => (w + t, none)), .recv 2, .add (fun _ w => (w, none)), .recv 3] :
      List (MonOp Nat Nat)) ∧
    invocations 0 ([.recv 1, .add (fun t w => (w + t, none)), .recv 2, .add (fun _ w => (w, none)), .recv 3] :
      List (MonOp Nat Nat)) = [(0, 2), (0, 3), (1, 3)] := by
  refine ⟨?_, by decide⟩
  intro c hc t w
  simp at hc
  rcases hc with rfl | rfl <;> rfl

/-- C21, a callback that raises: the callbacks registered before it have been called, those after it are not, and the transaction is
counted but neither queued nor signalled to anybody. -/
theorem C21_raising (m : Monitor T σ) (pre post : List (Callback T σ)) (c : Callback T σ) (hm : m.callbacks = pre ++ c :: post)
    (t : T) (w w' : σ) (hpre : runCallbacks pre t w = (w', none)) (e : PyErr) (hc : (c t w').2 = some e) :
    m.recv t w = ({ m with received := m.received + 1 }, (c t w').1, some e) := by
  have hrun : ∀ (pre : List (Callback T σ)) (w : σ), runCallbacks pre t w = (w', none) →
      runCallbacks (pre ++ c :: post) t w = ((c t w').1, some e) := by
    intro pre
    induction pre with
    | nil =>
      intro w h
      cases h
      show (match c t w' with
        | (w', some e) => (w', some e)
        | (w', none) => runCallbacks post t w') = _
      rw [show c t w' = ((c t w').1, some e) by rw [← hc]]
    | cons d r ih =>
      intro w h
      simp only [runCallbacks, List.cons_append] at h ⊢
      cases hd : d t w with
      | mk w1 x =>
        rw [hd] at h
        cases x with
        | none => exact ih w1 h
        | some y => cases h
  unfold Monitor.recv
  simp only [hm]
  rw [hrun pre w hpre]

/-- a monitor whose second of three callbacks raises on odd transactions -/
example : runCallbacks [fun (t : Nat) (w : Nat) => (w + t, none)] 3 0 = (3, none) ∧
    ((fun (t : Nat) (w : Nat) => if t % 2 = 1 then (w + 10, some PyErr.valueError) else (w, none)) 3 3 : Nat × Option PyErr).2 = some .valueError := by
  decide

/-! ### C22 -/

/-- C22: what `wait_for_recv` is to return is stored by every reception that succeeds, and only by those. -/
theorem C22_stored (m : Monitor T σ) (t : T) (w : σ) :
    (m.recv t w).1.waitData = (if (m.recv t w).2.2 = none then some t else m.waitData) := by
  unfold Monitor.recv
  simp only
  cases h : runCallbacks m.callbacks t w with
  | mk w' x =>
    cases x with
    | none => simp
    | some e => simp

/-- the transactions received in a scheduler history -/
def receptions : List (WaitOp T) → List T
  | [] => []
  | .recv t :: r => t :: receptions r
  | _ :: r => receptions r

/-- C22 is false of the code: if two transactions are received before the released task gets to
run, the task returns the second one, not the one that released it. -/
theorem C22_violated (t1 t2 : T) (w : Nat) :
    ∃ s, (WaitSys.init T).run [.start w none, .recv t1, .recv t2, .resume w] = some s ∧
      s.tasks w = .done (some t2) := by
  refine ⟨⟨some t2, fun w' => if w' = w then .done (some t2) else .idle⟩, ?_, by simp⟩
  simp only [WaitSys.run, WaitSys.step, WaitSys.init, WaitSys.setTask, WaitSys.recv, if_true]
  congr 2
  funext w'
  by_cases h : w' = w <;> simp [h]

/-- C22, proved part: if no further transaction arrives between the one that releases the task and
the task being run, the task returns the releasing transaction, i.e. the first one received after it
started waiting. Missing: the case of `C22_violated`. -/
theorem C22_returns_first_partial (before mid post : List (WaitOp T)) (w : Nat) (timeout : Option Nat) (t : T)
    (s : WaitSys T)
    (hrun : (WaitSys.init T).run (before ++ .start w timeout :: (mid ++ .recv t :: (post ++ [.resume w]))) = some s)
    (hmid : receptions mid = []) (hpost : receptions post = [])
    (hw : ∀ o ∈ mid ++ post, o ≠ .timer w ∧ o ≠ .resume w) :
    s.tasks w = .done (some t) := by
  rw [run_append] at hrun
  cases h0 : (WaitSys.init T).run before with
  | none => rw [h0] at hrun; cases hrun
  | some s0 =>
    rw [h0] at hrun
    simp only [WaitSys.run] at hrun
    cases h1 : s0.step (.start w timeout) with
    | none => rw [h1] at hrun; cases hrun
    | some s1 =>
      rw [h1] at hrun
      simp only [run_append] at hrun
      have hs1 := (step_start _ _ _ _ h1).2
      -- `mid` and `post` keep the task where it is
      have keep : ∀ (l : List (WaitOp T)) (a b : WaitSys T), receptions l = [] →
          (∀ o ∈ l, o ≠ .timer w ∧ o ≠ .resume w) → a.run l = some b → a.tasks w ≠ .idle →
          b.tasks w = a.tasks w ∧ b.data = a.data := by
        intro l
        induction l with
        | nil => intro a b _ _ h _; cases h; exact ⟨rfl, rfl⟩
        | cons o r ih =>
          intro a b hr ho h hi
          simp only [WaitSys.run] at h
          cases hst : a.step o with
          | none => rw [hst] at h; cases h
          | some a' =>
            rw [hst] at h
            have hrr : receptions r = [] := by cases o <;> simp_all [receptions]
            have hnr : ∀ t, o ≠ .recv t := by
              intro t e; subst e; simp [receptions] at hr
            have hns : ∀ x, o ≠ .start w x := by
              intro x e
              subst e
              exact hi (step_start _ _ _ _ hst).1
            obtain ⟨e1, e2⟩ := step_other a a' o w hst hnr hns (ho o (List.mem_cons_self ..)).1
              (ho o (List.mem_cons_self ..)).2
            obtain ⟨e3, e4⟩ := ih a' b hrr (fun o ho' => ho o (List.mem_cons_of_mem _ ho')) h (by rw [e1]; exact hi)
            exact ⟨e3.trans e1, e4.trans e2⟩
      obtain ⟨bb, hs1⟩ := hs1
      cases h2 : s1.run mid with
      | none => rw [h2] at hrun; cases hrun
      | some s2 =>
        rw [h2] at hrun
        obtain ⟨k1, -⟩ := keep mid s1 s2 hmid (fun o ho => hw o (List.mem_append_left _ ho)) h2 (by simp [hs1])
        simp only [WaitSys.run, WaitSys.step] at hrun
        rw [run_append] at hrun
        cases h3 : (s2.recv t).run post with
        | none => rw [h3] at hrun; cases hrun
        | some s3 =>
          rw [h3] at hrun
          have hwk : (s2.recv t).tasks w = .woken := by simp [WaitSys.recv, k1, hs1]
          obtain ⟨k2, k3⟩ := keep post _ s3 hpost (fun o ho => hw o (List.mem_append_right _ ho)) h3 (by simp [hwk])
          simp only [WaitSys.run, WaitSys.step, k2, hwk] at hrun
          cases hrun
          simp [WaitSys.setTask, k3, WaitSys.recv]

theorem receptions_append (a b : List (WaitOp T)) : receptions (a ++ b) = receptions a ++ receptions b := by
  induction a with
  | nil => rfl
  | cons o r ih => cases o <;> simp [receptions, ih]

/-- a task that has been released stays so until it is run -/
theorem released (before mid post : List (WaitOp T)) (w : Nat) (timeout : Option Nat) (t : T) (s : WaitSys T)
    (hrun : (WaitSys.init T).run (before ++ .start w timeout :: (mid ++ .recv t :: post)) = some s)
    (hmid : receptions mid = []) (hw : ∀ o ∈ mid ++ post, o ≠ .timer w ∧ o ≠ .resume w) : s.tasks w = .woken := by
  have stay : ∀ (l : List (WaitOp T)) (a b : WaitSys T), (∀ o ∈ l, o ≠ .timer w ∧ o ≠ .resume w) → a.run l = some b →
      (a.tasks w = .woken → b.tasks w = .woken) ∧ ((∃ x, a.tasks w = .waiting x) → receptions l = [] → ∃ x, b.tasks w = .waiting x) := by
    intro l
    induction l with
    | nil => intro a b _ h; cases h; exact ⟨fun h => h, fun h _ => h⟩
    | cons o r ih =>
      intro a b ho h
      simp only [WaitSys.run] at h
      cases hst : a.step o with
      | none => rw [hst] at h; cases h
      | some a' =>
        rw [hst] at h
        obtain ⟨i1, i2⟩ := ih a' b (fun o h => ho o (List.mem_cons_of_mem _ h)) h
        by_cases hr : ∃ t', o = .recv t'
        · obtain ⟨t', rfl⟩ := hr
          simp only [WaitSys.step, Option.some.injEq] at hst
          subst hst
          exact ⟨fun hk => i1 (by simp [WaitSys.recv, hk]), fun _ hn => by simp [receptions] at hn⟩
        · have hstart : a.tasks w ≠ .idle → ∀ x, o ≠ .start w x := by
            intro hi x h
            subst h
            exact hi (step_start _ _ _ _ hst).1
          refine ⟨fun hk => ?_, fun ⟨x, hk⟩ hn => ?_⟩
          · obtain ⟨e1, -⟩ := step_other a a' o w hst (fun t' h => hr ⟨t', h⟩) (hstart (by rw [hk]; simp)) (ho o (by simp)).1 (ho o (by simp)).2
            exact i1 (e1.trans hk)
          · obtain ⟨e1, -⟩ := step_other a a' o w hst (fun t' h => hr ⟨t', h⟩) (hstart (by rw [hk]; simp)) (ho o (by simp)).1 (ho o (by simp)).2
            refine i2 ⟨x, e1.trans hk⟩ ?_
            cases o <;> simp_all [receptions]
  rw [run_append] at hrun
  cases h0 : (WaitSys.init T).run before with
  | none => rw [h0] at hrun; cases hrun
  | some s0 =>
    rw [h0] at hrun
    simp only [WaitSys.run] at hrun
    cases h1 : s0.step (.start w timeout) with
    | none => rw [h1] at hrun; cases hrun
    | some s1 =>
      rw [h1] at hrun
      simp only [run_append] at hrun
      cases h2 : s1.run mid with
      | none => rw [h2] at hrun; cases hrun
      | some s2 =>
        rw [h2] at hrun
        obtain ⟨x, hx⟩ := (stay mid s1 s2 (fun o h => hw o (List.mem_append_left _ h)) h2).2 (step_start _ _ _ _ h1).2 hmid
        simp only [WaitSys.run, WaitSys.step] at hrun
        exact (stay post (s2.recv t) s (fun o h => hw o (List.mem_append_right _ h)) hrun).1 (by simp [WaitSys.recv, hx])

/-- C22, what the code does in every case: a task released by a transaction returns the last transaction received before it is run, whatever else
happens in between. -/
theorem C22_returns_last (before mid post : List (WaitOp T)) (w : Nat) (timeout : Option Nat) (t : T)
    (s : WaitSys T)
    (hrun : (WaitSys.init T).run (before ++ .start w timeout :: (mid ++ .recv t :: (post ++ [.resume w]))) = some s)
    (hmid : receptions mid = []) (hw : ∀ o ∈ mid ++ post, o ≠ .timer w ∧ o ≠ .resume w) :
    s.tasks w = .done (some ((receptions post).getLast?.getD t)) := by
  induction post using List.reverseRecOn generalizing s with
  | nil => exact C22_returns_first_partial before mid [] w timeout t s hrun hmid rfl hw
  | append_singleton l o ih =>
    have hw' : ∀ o ∈ mid ++ l, o ≠ .timer w ∧ o ≠ .resume w := fun o' h => hw o' (by
      rcases List.mem_append.1 h with h | h
      · exact List.mem_append_left _ h
      · exact List.mem_append_right _ (List.mem_append_left _ h))
    obtain ⟨ho1, ho2⟩ := hw o (by simp)
    have hsplit : ∀ x : List (WaitOp T), before ++ .start w timeout :: (mid ++ .recv t :: (l ++ x)) = (before ++ .start w timeout :: (mid ++ .recv t :: l)) ++ x := by
      intro x; simp
    rw [List.append_assoc, hsplit, run_append] at hrun
    cases h0 : (WaitSys.init T).run (before ++ .start w timeout :: (mid ++ .recv t :: l)) with
    | none => rw [h0] at hrun; cases hrun
    | some s0 =>
      rw [h0] at hrun
      simp only [List.cons_append, List.nil_append, WaitSys.run] at hrun
      -- without the last operation
      have hpast : s0.tasks w = .woken ∧ s0.data = some ((receptions l).getLast?.getD t) := by
        have hres : ∀ s1, s0.step (.resume w) = some s1 → s1.tasks w = .done (some ((receptions l).getLast?.getD t)) := by
          intro s1 hs1
          refine ih s1 ?_ hw'
          rw [hsplit, run_append, h0]
          simp only [WaitSys.run, hs1]
        have hk : s0.tasks w = .woken := by
          have := released (T := T) before mid l w timeout t s0 h0 hmid hw'
          exact this
        refine ⟨hk, ?_⟩
        have := hres (s0.setTask w (.done s0.data)) (by simp [WaitSys.step, hk])
        simpa [WaitSys.setTask] using this
      cases hst : s0.step o with
      | none => rw [hst] at hrun; cases hrun
      | some s1 =>
        rw [hst] at hrun
        simp only at hrun
        by_cases hr : ∃ t', o = .recv t'
        · obtain ⟨t', rfl⟩ := hr
          simp only [WaitSys.step, Option.some.injEq] at hst
          subst hst
          have hk : (s0.recv t').tasks w = .woken := by simp [WaitSys.recv, hpast.1]
          simp only [WaitSys.step, hk, Option.some.injEq] at hrun
          cases hrun
          simp [WaitSys.setTask, WaitSys.recv, receptions_append, receptions]
        · obtain ⟨e1, e2⟩ := step_other s0 s1 o w hst (fun t' h => hr ⟨t', h⟩) (fun x h => by
            subst h
            have := (step_start _ _ _ _ hst).1
            rw [hpast.1] at this
            cases this) ho1 ho2
          rw [hpast.1] at e1
          simp only [WaitSys.step, e1, Option.some.injEq] at hrun
          cases hrun
          have hnil : receptions [o] = [] := by
            cases o <;> first | rfl | exact absurd ⟨_, rfl⟩ hr
          have happ : receptions (l ++ [o]) = receptions l := by
            rw [receptions_append, hnil, List.append_nil]
          simp [WaitSys.setTask, e2, hpast.2, happ]

example : ∃ s, (WaitSys.init Nat).run ([.recv 9] ++ .start 0 (some 5) :: ([.start 1 none] ++ .recv 1 :: ([.recv 2, .resume 1, .recv 3] ++ [.resume 0]))) = some s ∧
    s.tasks 0 = .done (some 3) ∧ s.tasks 1 = .done (some 2) := ⟨_, rfl, rfl, rfl⟩

/-- C22: whatever the schedule, a transaction returned by `wait_for_recv` was received after the
task started waiting. -/
theorem C22_never_stale (before after : List (WaitOp T)) (w : Nat) (timeout : Option Nat) (s : WaitSys T)
    (hrun : (WaitSys.init T).run (before ++ .start w timeout :: after) = some s) (t : T)
    (hdone : s.tasks w = .done (some t)) : t ∈ receptions after := by
  rw [run_append] at hrun
  cases h0 : (WaitSys.init T).run before with
  | none => rw [h0] at hrun; cases hrun
  | some s0 =>
    rw [h0] at hrun
    simp only [WaitSys.run] at hrun
    cases h1 : s0.step (.start w timeout) with
    | none => rw [h1] at hrun; cases hrun
    | some s1 =>
      rw [h1] at hrun
      have hs1 := (step_start _ _ _ _ h1).2
      obtain ⟨bb, hs1⟩ := hs1
      -- invariant: `seen` are the receptions since the start
      have inv : ∀ (l : List (WaitOp T)) (seen : List T) (a b : WaitSys T),
          ((∃ x, a.tasks w = .waiting x) ∨ (a.tasks w = .woken ∧ ∃ d ∈ seen, a.data = some d) ∨
            a.tasks w = .timedOut ∨ a.tasks w = .done none ∨ ∃ d ∈ seen, a.tasks w = .done (some d)) →
          a.run l = some b → b.tasks w = .done (some t) → t ∈ seen ++ receptions l := by
        intro l
        induction l with
        | nil =>
          intro seen a b hi h hd
          cases h
          rw [hd] at hi
          simp at hi
          simpa [receptions] using hi
        | cons o r ih =>
          intro seen a b hi h hd
          simp only [WaitSys.run] at h
          cases hst : a.step o with
          | none => rw [hst] at h; cases h
          | some a' =>
            rw [hst] at h
            by_cases hrec : ∃ u, o = .recv u
            · obtain ⟨u, rfl⟩ := hrec
              have hst : a.recv u = a' := Option.some.inj hst
              subst hst
              have := ih (seen ++ [u]) _ b ?_ h hd
              · simpa [receptions] using this
              · rcases hi with ⟨x, hx⟩ | ⟨hx, -⟩ | hx | hx | ⟨d, hd1, hx⟩
                · right; left; simp [WaitSys.recv, hx]
                · right; left; simp [WaitSys.recv, hx]
                · right; right; left; simp [WaitSys.recv, hx]
                · right; right; right; left; simp [WaitSys.recv, hx]
                · right; right; right; right; exact ⟨d, by simp [hd1], by simp [WaitSys.recv, hx]⟩
            · have hnr : ∀ u, o ≠ .recv u := fun u e => hrec ⟨u, e⟩
              have hrr : receptions (o :: r) = receptions r := by
                cases o with
                | recv u => exact absurd rfl (hnr u)
                | _ => rfl
              rw [hrr]
              refine ih seen a' b ?_ h hd
              by_cases hns : ∃ x, o = .start w x
              · obtain ⟨x, rfl⟩ := hns
                rw [(step_start _ _ _ _ hst).1] at hi
                simp at hi
              by_cases htm : o = .timer w
              · subst htm
                simp only [WaitSys.step] at hst
                split at hst
                · cases hst; right; right; left; simp [WaitSys.setTask]
                · cases hst
              by_cases hrs : o = .resume w
              · subst hrs
                simp only [WaitSys.step] at hst
                split at hst
                · rename_i hwk
                  cases hst
                  rw [hwk] at hi
                  simp at hi
                  obtain ⟨d, hd1, hd2⟩ := hi
                  right; right; right; right
                  exact ⟨d, hd1, by simp [WaitSys.setTask, hd2]⟩
                · cases hst; right; right; right; left; simp [WaitSys.setTask]
                · cases hst
              · obtain ⟨e1, e2⟩ := step_other a a' o w hst hnr (fun x e => hns ⟨x, e⟩) htm hrs
                rw [e1, e2]; exact hi
      have := inv after [] s1 s (Or.inl ⟨bb, hs1⟩) hrun hdone
      simpa using this

/-- C22: without a timeout (None, or 0, which the code does not tell from None) the result is never None. -/
theorem C22_no_timeout (before after : List (WaitOp T)) (w : Nat) (timeout : Option Nat) (h0 : timeout = none ∨ timeout = some 0)
    (s : WaitSys T) (hrun : (WaitSys.init T).run (before ++ .start w timeout :: after) = some s) :
    s.tasks w ≠ .done none ∧ s.tasks w ≠ .timedOut := by
  have inv : ∀ (l : List (WaitOp T)) (a b : WaitSys T),
      (a.tasks w = .waiting false ∨ (a.tasks w = .woken ∧ a.data ≠ none) ∨ ∃ d, a.tasks w = .done (some d)) →
      a.run l = some b → (b.tasks w = .waiting false ∨ (b.tasks w = .woken ∧ b.data ≠ none) ∨ ∃ d, b.tasks w = .done (some d)) := by
    intro l
    induction l with
    | nil => intro a b hi h; cases h; exact hi
    | cons o r ih =>
      intro a b hi h
      simp only [WaitSys.run] at h
      cases hst : a.step o with
      | none => rw [hst] at h; cases h
      | some a' =>
        rw [hst] at h
        refine ih a' b ?_ h
        by_cases hrec : ∃ u, o = .recv u
        · obtain ⟨u, rfl⟩ := hrec
          have hst : a.recv u = a' := Option.some.inj hst
          subst hst
          rcases hi with hx | ⟨hx, -⟩ | ⟨d, hx⟩
          · right; left; simp [WaitSys.recv, hx]
          · right; left; simp [WaitSys.recv, hx]
          · right; right; exact ⟨d, by simp [WaitSys.recv, hx]⟩
        by_cases hns : ∃ x, o = .start w x
        · obtain ⟨x, rfl⟩ := hns
          rw [(step_start _ _ _ _ hst).1] at hi
          simp at hi
        by_cases htm : o = .timer w
        · subst htm
          simp only [WaitSys.step] at hst
          split at hst
          · rename_i hwt
            rw [hwt] at hi
            simp at hi
          · cases hst
        by_cases hrs : o = .resume w
        · subst hrs
          simp only [WaitSys.step] at hst
          split at hst
          · rename_i hwk
            cases hst
            rw [hwk] at hi
            simp at hi
            right; right
            obtain ⟨d, hd⟩ := Option.ne_none_iff_exists'.1 hi
            exact ⟨d, by simp [WaitSys.setTask, hd]⟩
          · rename_i hwk
            rw [hwk] at hi
            simp at hi
          · cases hst
        · obtain ⟨e1, e2⟩ := step_other a a' o w hst (fun u e => hrec ⟨u, e⟩) (fun x e => hns ⟨x, e⟩) htm hrs
          rw [e1, e2]; exact hi
  rw [run_append] at hrun
  cases hb : (WaitSys.init T).run before with
  | none => rw [hb] at hrun; cases hrun
  | some s0 =>
    rw [hb] at hrun
    simp only [WaitSys.run] at hrun
    cases h1 : s0.step (.start w timeout) with
    | none => rw [h1] at hrun; cases hrun
    | some s1 =>
      rw [h1] at hrun
      have hs1 : s1.tasks w = .waiting false := by
        simp only [WaitSys.step] at h1
        split at h1
        · rcases h0 with rfl | rfl <;> cases h1 <;> simp [WaitSys.setTask]
        · cases h1
      rcases inv after s1 s (.inl hs1) hrun with h | ⟨h, -⟩ | ⟨d, h⟩ <;> rw [h] <;> simp

/-- such a run: the timer of another task fires in between -/
example : ((WaitSys.init Nat).run [.start 1 (some 0), .start 2 (some 5), .timer 2, .recv 7, .resume 1, .resume 2]).isSome = true ∧
    ((WaitSys.init Nat).run [.start 1 (some 0), .start 2 (some 5), .timer 2, .recv 7, .resume 1, .resume 2]).map (fun s => (s.tasks 1, s.tasks 2)) =
      some (.done (some 7), .done none) := by decide

/-- C22: with any timeout other than None and 0 the timeout can fire as long as nothing has been received since the wait started and the
task has not been run, and then the task returns None. -/
theorem C22_can_time_out (before mid : List (WaitOp T)) (w n : Nat) (s : WaitSys T)
    (hrun : (WaitSys.init T).run (before ++ .start w (some (n + 1)) :: mid) = some s)
    (hmid : receptions mid = []) (hw : ∀ o ∈ mid, o ≠ .timer w ∧ o ≠ .resume w) :
    ∃ s', (WaitSys.init T).run (before ++ .start w (some (n + 1)) :: (mid ++ [.timer w, .resume w])) = some s' ∧ s'.tasks w = .done none := by
  rw [run_append] at hrun ⊢
  cases h0 : (WaitSys.init T).run before with
  | none => rw [h0] at hrun; cases hrun
  | some s0 =>
    rw [h0] at hrun
    simp only [WaitSys.run] at hrun ⊢
    cases h1 : s0.step (.start w (some (n + 1))) with
    | none => rw [h1] at hrun; cases hrun
    | some s1 =>
      rw [h1] at hrun
      have hs1 : s1.tasks w = .waiting true := by
        have := (step_start _ _ _ _ h1).1
        simp only [WaitSys.step, this] at h1
        cases h1
        simp [WaitSys.setTask]
      have keep : ∀ (l : List (WaitOp T)) (a b : WaitSys T), receptions l = [] →
          (∀ o ∈ l, o ≠ .timer w ∧ o ≠ .resume w) → a.run l = some b → a.tasks w = .waiting true → b.tasks w = .waiting true := by
        intro l
        induction l with
        | nil => intro a b _ _ h hi; cases h; exact hi
        | cons o r ih =>
          intro a b hr ho h hi
          simp only [WaitSys.run] at h
          cases hst : a.step o with
          | none => rw [hst] at h; cases h
          | some a' =>
            rw [hst] at h
            have hrr : receptions r = [] := by cases o <;> simp_all [receptions]
            have hnr : ∀ t, o ≠ .recv t := by
              intro t e; subst e; simp [receptions] at hr
            have hns : ∀ x, o ≠ .start w x := by
              intro x e
              subst e
              rw [(step_start _ _ _ _ hst).1] at hi
              cases hi
            obtain ⟨e1, -⟩ := step_other a a' o w hst hnr hns (ho o (List.mem_cons_self ..)).1 (ho o (List.mem_cons_self ..)).2
            exact ih a' b hrr (fun o ho' => ho o (List.mem_cons_of_mem _ ho')) h (by rw [e1]; exact hi)
      have hs := keep mid s1 s hmid hw hrun hs1
      refine ⟨(s.setTask w .timedOut).setTask w (.done none), ?_, by simp [WaitSys.setTask]⟩
      simp only [run_append, hrun, WaitSys.run, WaitSys.step, hs, WaitSys.setTask, if_true]

example : ∃ s, (WaitSys.init Nat).run ([.recv 3] ++ .start 0 (some 1) :: [.start 1 none]) = some s := ⟨_, rfl⟩

/-- C22: if the timeout fires before any transaction is received, the result is None. -/
theorem C22_timeout (before mid post : List (WaitOp T)) (w n : Nat) (s : WaitSys T)
    (hrun : (WaitSys.init T).run (before ++ .start w (some (n + 1)) :: (mid ++ .timer w :: (post ++ [.resume w]))) = some s) :
    s.tasks w = .done none := by
  -- `timer w` is only enabled while waiting, so nothing released the task before
  rw [run_append] at hrun
  cases h0 : (WaitSys.init T).run before with
  | none => rw [h0] at hrun; cases hrun
  | some s0 =>
    rw [h0] at hrun
    simp only [WaitSys.run] at hrun
    cases h1 : s0.step (.start w (some (n + 1))) with
    | none => rw [h1] at hrun; cases hrun
    | some s1 =>
      rw [h1] at hrun
      simp only [run_append] at hrun
      cases h2 : s1.run mid with
      | none => rw [h2] at hrun; cases hrun
      | some s2 =>
        rw [h2] at hrun
        simp only [WaitSys.run] at hrun
        cases h3 : s2.step (.timer w) with
        | none => rw [h3] at hrun; cases hrun
        | some s3 =>
          rw [h3] at hrun
          have ht : s3.tasks w = .timedOut := by
            simp only [WaitSys.step] at h3
            split at h3
            · cases h3; simp [WaitSys.setTask]
            · cases h3
          simp only [run_append] at hrun
          -- from `timedOut` only `resume w` moves the task, to `done none`, where it stays
          have keep : ∀ (l : List (WaitOp T)) (a b : WaitSys T), (a.tasks w = .timedOut ∨ a.tasks w = .done none) →
              a.run l = some b → (b.tasks w = .timedOut ∨ b.tasks w = .done none) := by
            intro l
            induction l with
            | nil => intro a b hi h; cases h; exact hi
            | cons o r ih =>
              intro a b hi h
              simp only [WaitSys.run] at h
              cases hst : a.step o with
              | none => rw [hst] at h; cases h
              | some a' =>
                rw [hst] at h
                refine ih a' b ?_ h
                by_cases hrec : ∃ u, o = .recv u
                · obtain ⟨u, rfl⟩ := hrec
                  have hst : a.recv u = a' := Option.some.inj hst
                  subst hst
                  rcases hi with hi | hi <;> simp [WaitSys.recv, hi]
                by_cases hns : ∃ x, o = .start w x
                · obtain ⟨x, rfl⟩ := hns
                  rw [(step_start _ _ _ _ hst).1] at hi
                  simp at hi
                by_cases htm : o = .timer w
                · subst htm
                  simp only [WaitSys.step] at hst
                  split at hst
                  · rename_i hh; rw [hh] at hi; simp at hi
                  · cases hst
                by_cases hrs : o = .resume w
                · subst hrs
                  simp only [WaitSys.step] at hst
                  split at hst
                  · rename_i hwk; rw [hwk] at hi; simp at hi
                  · cases hst; right; simp [WaitSys.setTask]
                  · cases hst
                · obtain ⟨e1, -⟩ := step_other a a' o w hst (fun u e => hrec ⟨u, e⟩) (fun x e => hns ⟨x, e⟩) htm hrs
                  rw [e1]; exact hi
          cases h4 : s3.run post with
          | none => rw [h4] at hrun; cases hrun
          | some s4 =>
            rw [h4] at hrun
            have := keep post s3 s4 (Or.inl ht) h4
            simp only [WaitSys.run, WaitSys.step] at hrun
            rcases this with h5 | h5
            · simp only [h5] at hrun; cases hrun; simp [WaitSys.setTask]
            · simp [h5] at hrun

example : ∃ s, (WaitSys.init Nat).run ([.recv 4] ++ .start 7 (some 3) :: ([.start 8 none] ++ .recv 5 ::
      ([.resume 8] ++ [.resume 7]))) = some s ∧ s.tasks 7 = .done (some 5) := by
  refine ⟨_, rfl, ?_⟩
  decide

example : ∃ s, (WaitSys.init Nat).run ([] ++ .start 7 (some 3) :: ([.start 8 none] ++ .timer 7 ::
      ([.recv 5] ++ [.resume 7]))) = some s ∧ s.tasks 7 = .done none := by
  refine ⟨_, rfl, ?_⟩
  decide

/-! ### C23 -/

/-- C23 for one-bit reset signals: the active-low signal has priority, otherwise the active-high
one, otherwise not in reset; an undefined reset raises ValueError. -/
theorem C23_in_reset (rn r : Option Logic) :
    inReset (rn.map (fun b => [b])) (r.map (fun b => [b])) =
      match rn, r with
      | some .zero, _ => .ok true
      | some .one, _ => .ok false
      | some _, _ => .error .valueError
      | none, some .one => .ok true
      | none, some .zero => .ok false
      | none, some _ => .error .valueError
      | none, none => .ok false := by
  cases rn with
  | some b => cases b <;> rfl
  | none =>
    cases r with
    | some b => cases b <;> rfl
    | none => rfl

/-- C23 for vectors: in reset exactly when the resolved value of reset_n is zero (resp. that of reset
is non-zero). -/
theorem C23_in_reset_vector (v : LogicArray) (r : Option LogicArray) (hv : ∀ b ∈ v, b = .zero ∨ b = .one) :
    inReset (some v) r = .ok (decide (bitsToNat v = 0)) ∧
    inReset none (some v) = .ok (decide (bitsToNat v ≠ 0)) := by
  have hr : isResolvable v = true := by
    simp only [isResolvable, List.all_eq_true]
    intro b hb
    rcases hv b hb with rfl | rfl <;> rfl
  simp only [inReset, toUnsigned, hr, if_true, Except.map, Except.ok.injEq]
  constructor <;> by_cases h : bitsToNat v = 0 <;> simp [h]

example : inReset (some [.zero]) (some [.zero]) = .ok true := by decide

end CocotbBus
