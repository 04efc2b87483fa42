import Verif.Props.Driver
import Verif.Spec.DriverCb

/-! # C110: callbacks that use the driver -/

namespace CocotbBus
open Spec
variable {T : Type}

/-! ### The same history with the calls of a callback made by somebody else, just before -/

def CbOp.op : CbOp T → DOp T
  | .append it => .append it
  | .clear => .clear

def RDOp.ops : RDOp T → List (DOp T)
  | .plain o => [o]
  | .done calls none => calls.map CbOp.op ++ [.sendDone]
  | .done calls (some e) => calls.map CbOp.op ++ [.callbackRaise e]

theorem cbCall_thread (calls : List (CbOp T)) (s : Drv T) : (calls.foldl Drv.cbCall s).thread = s.thread ∧ (calls.foldl Drv.cbCall s).log = s.log := by
  induction calls generalizing s with
  | nil => exact ⟨rfl, rfl⟩
  | cons o r ih => cases o <;> exact ih _

theorem cbCall_log (calls : List (CbOp T)) (q : List (Item T)) (p : Bool) (t : Thread T) (d : List T) (l l' : List (DEv T)) :
    calls.foldl Drv.cbCall ⟨q, p, t, d, l'⟩ = ⟨(calls.foldl Drv.cbCall ⟨q, p, t, d, l⟩).queue, (calls.foldl Drv.cbCall ⟨q, p, t, d, l⟩).pending, t, d, l'⟩ := by
  induction calls generalizing q p with
  | nil => rfl
  | cons o r ih => cases o <;> simp only [List.foldl_cons, Drv.cbCall] <;> exact ih _ _

theorem calls_run (calls : List (CbOp T)) (s : Drv T) (it : Item T) (b : Bool) (hs : s.thread = .sending it b) :
    s.run (calls.map CbOp.op) = some (calls.foldl Drv.cbCall s) := by
  induction calls generalizing s with
  | nil => rfl
  | cons o r ih =>
    obtain ⟨q, p, t, d, l⟩ := s
    simp only at hs
    subst hs
    cases o with
    | append x => exact ih _ rfl
    | clear => exact ih _ rfl

theorem stepCb_run (s s' : Drv T) (o : RDOp T) (h : s.stepCb o = some s') : s.run o.ops = some s' := by
  cases o with
  | plain o =>
    cases o with
    | sendDone => cases h
    | callbackRaise e => cases h
    | _ => simp only [Drv.stepCb] at h; simp only [RDOp.ops, Drv.run, h]
  | done calls exc =>
    obtain ⟨q, p, t, d, l⟩ := s
    simp only [Drv.stepCb] at h
    split at h
    · rename_i it b
      have hr := calls_run calls ⟨q, p, .sending it b, d, l⟩ it b rfl
      have hl := cbCall_log calls q p (.sending it b) d l
      have h0 := hl l
      generalize calls.foldl Drv.cbCall ⟨q, p, .sending it b, d, l⟩ = s1 at hr hl h0
      obtain ⟨q1, p1, t1, d1, l1⟩ := s1
      cases h0
      cases he : it.hasEvent <;> cases hc : it.hasCb <;> cases exc <;>
        simp only [Drv.complete, he, hc, if_true, if_false, Bool.false_eq_true, RDOp.ops] at h ⊢
      all_goals first
        | (split at h
           · rename_i hx
             obtain ⟨rfl, -⟩ := hx
             simpa [Drv.run, Drv.step, notify, he, hc] using h
           · cases h)
        | (rw [hl] at h
           rw [Drv.run_append, hr]
           simpa [Drv.run, Drv.step, notify, he, hc] using h)
        | (rw [if_neg (by simp)] at h; cases h)
    · cases h

theorem runCb_run (h : List (RDOp T)) (s s' : Drv T) (hr : s.runCb h = some s') : s.run (h.flatMap RDOp.ops) = some s' := by
  induction h generalizing s with
  | nil => exact hr
  | cons o r ih =>
    simp only [Drv.runCb] at hr
    split at hr
    · cases hr
    · rename_i s1 h1
      rw [List.flatMap_cons, Drv.run_append, stepCb_run s s1 o h1]
      exact ih s1 hr

theorem calls_appended (calls : List (CbOp T)) : appended (calls.map CbOp.op) = cbAppended calls := by
  induction calls with
  | nil => rfl
  | cons o r ih => cases o <;> simp [CbOp.op, appended, cbAppended, ih]

theorem ops_appended (h : List (RDOp T)) : appended (h.flatMap RDOp.ops) = allAppended h := by
  induction h with
  | nil => rfl
  | cons o r ih =>
    rw [List.flatMap_cons, appended_append, ih]
    cases o with
    | plain o => cases o <;> simp [RDOp.ops, appended, allAppended]
    | done calls exc => cases exc <;> simp [RDOp.ops, appended_append, calls_appended, appended, allAppended]

theorem ops_clear (h : List (RDOp T)) (hc : NoClear h) : .clear ∉ h.flatMap RDOp.ops := by
  intro hm
  obtain ⟨o, h1, h2⟩ := List.mem_flatMap.1 hm
  cases o with
  | plain o =>
    simp only [RDOp.ops, List.mem_singleton] at h2
    exact hc.1 (h2 ▸ h1)
  | done calls exc =>
    have : (.clear : DOp T) ∈ calls.map CbOp.op := by cases exc <;> simpa [RDOp.ops] using h2
    obtain ⟨c, i1, i2⟩ := List.mem_map.1 this
    cases c with
    | append x => cases i2
    | clear => exact hc.2 calls exc h1 i1

theorem calls_completions (calls : List (CbOp T)) : completions (calls.map CbOp.op) = 0 := by
  induction calls with
  | nil => rfl
  | cons o r ih => cases o <;> simpa [CbOp.op, completions] using ih

theorem ops_completions (h : List (RDOp T)) (s s' : Drv T) (hr : s.runCb h = some s') : completions (h.flatMap RDOp.ops) = cbCompletions h := by
  induction h generalizing s with
  | nil => rfl
  | cons o r ih =>
    simp only [Drv.runCb] at hr
    split at hr
    · cases hr
    · rename_i s1 h1
      rw [List.flatMap_cons, completions_append, ih s1 hr]
      cases o with
      | plain o => cases o <;> first | cases h1; done | simp [RDOp.ops, completions, cbCompletions]
      | done calls exc => cases exc <;> simp [RDOp.ops, completions_append, calls_completions, completions, cbCompletions] <;> omega

/-! ### The property -/

/-- **C110**, order: in every history in which nobody calls `clear`, the transactions that were started, followed by those that are queued,
are the transactions appended so far, by callbacks or otherwise, in the order of the calls. -/
theorem C110_order (h : List (RDOp T)) (s : Drv T) (hr : Drv.init.runCb h = some s) (hc : NoClear h) :
    (started s.log).map Prod.fst ++ s.queue = allAppended h := by
  rw [← ops_appended]
  exact C10_order _ s (runCb_run h _ s hr) (ops_clear h hc)

theorem run_sublist (h : List (DOp T)) : ∀ s s' : Drv T, s.run h = some s' →
    ((started s'.log).map Prod.fst ++ s'.queue).Sublist ((started s.log).map Prod.fst ++ s.queue ++ appended h) := by
  induction h with
  | nil => intro s s' hr; cases hr; simp [appended]
  | cons o r ih =>
    intro s s' hr
    have hr' : s.run ([o] ++ r) = some s' := hr
    rw [Drv.run_append] at hr'
    cases h1 : s.run [o] with
    | none => rw [h1] at hr'; cases hr'
    | some s1 =>
      rw [h1] at hr'
      refine (ih s1 s' hr').trans ?_
      rw [show o :: r = [o] ++ r from rfl, appended_append, ← List.append_assoc]
      refine List.Sublist.append ?_ (List.Sublist.refl _)
      by_cases ho : o = .clear
      · subst ho
        simp only [Drv.run, Drv.step, Option.some.injEq] at h1
        subst h1
        simp [appended]
      · rw [run_stream [o] (by simpa using fun h => ho h.symm) s s1 h1]
        exact List.Sublist.refl _

/-- **C110**, order with any number of calls of `clear`, by callbacks or otherwise: what was started followed by what is queued is in the order in which it was
appended, and contains no more of it than was appended. -/
theorem C110_order_any (h : List (RDOp T)) (s : Drv T) (hr : Drv.init.runCb h = some s) :
    ((started s.log).map Prod.fst ++ s.queue).Sublist (allAppended h) := by
  rw [← ops_appended]
  simpa [Drv.init, started] using run_sublist _ _ s (runCb_run h _ s hr)

/-- **C110**, `clear` called by a callback: what was queued is gone, what the callback appends afterwards is sent. -/
theorem C110_order_clear (h : List (RDOp T)) (s0 s : Drv T) (it : Item T) (b : Bool) (before after : List (CbOp T)) (exc : Option PyErr)
    (hr0 : Drv.init.runCb h = some s0) (ht : s0.thread = .sending it b) (hr : s0.stepCb (.done (before ++ .clear :: after) exc) = some s)
    (hc : .clear ∉ after) : (started s.log).map Prod.fst ++ s.queue = (started s0.log).map Prod.fst ++ cbAppended after := by
  have h0 := runCb_run h _ s0 hr0
  have h1 := stepCb_run s0 s _ hr
  obtain ⟨s1, hs1⟩ : ∃ s1, s0.run (before.map CbOp.op) = some s1 := ⟨_, calls_run before s0 it b ht⟩
  have hl : s1.log = s0.log := by
    rw [calls_run before s0 it b ht] at hs1
    cases hs1
    exact (cbCall_thread before s0).2
  have hcl : ∀ l : List (DOp T), (l = [.sendDone] ∨ ∃ e, l = [.callbackRaise e]) → .clear ∉ after.map CbOp.op ++ l := by
    intro l hl hm
    rcases List.mem_append.1 hm with hm | hm
    · obtain ⟨c, i1, i2⟩ := List.mem_map.1 hm
      cases c with
      | append x => cases i2
      | clear => exact hc i1
    · rcases hl with rfl | ⟨e, rfl⟩ <;> simp at hm
  have key : ∀ l : List (DOp T), (l = [.sendDone] ∨ ∃ e, l = [.callbackRaise e]) →
      s0.run ((before ++ .clear :: after).map CbOp.op ++ l) = some s →
      (started s.log).map Prod.fst ++ s.queue = (started s0.log).map Prod.fst ++ cbAppended after := by
    intro l hl' hrun
    have := C10_order_clear (h.flatMap RDOp.ops ++ before.map CbOp.op) (after.map CbOp.op ++ l) s1 s
      (by rw [Drv.run_append, h0]; exact hs1)
      (by
        rw [List.append_assoc, Drv.run_append, h0]
        simpa [CbOp.op] using hrun) (hcl l hl')
    rw [this, hl, appended_append, calls_appended]
    rcases hl' with rfl | ⟨e, rfl⟩ <;> simp [appended]
  cases exc with
  | none => exact key [.sendDone] (.inl rfl) h1
  | some e => exact key [.callbackRaise e] (.inr ⟨e, rfl⟩) h1

/-- **C110**, no transaction appended by a callback is forgotten: while the sending coroutine has not ended and something is queued, it is
sending or about to run. -/
theorem C110_no_lost_wakeup (h : List (RDOp T)) (s : Drv T) (hr : Drv.init.runCb h = some s) (ha : alive s) (hq : s.queue ≠ []) :
    (∃ it b, s.thread = .sending it b) ∨ s.thread = .woken ∨ s.thread = .notStarted :=
  C11_no_lost_wakeup _ s (runCb_run h _ s hr) ha hq

/-- **C110**: `sync` is true exactly for the first transaction since the coroutine last found the queue empty. -/
theorem C110_sync (h : List (RDOp T)) (s : Drv T) (hr : Drv.init.runCb h = some s) : SyncOk true s.log :=
  C12_sync _ s (runCb_run h _ s hr)

/-- **C110**: the callback of a transaction appends another, nothing else is queued: that one is started at once, and without
synchronising, and the coroutine has not found the queue empty in between. -/
theorem C110_chain (s s' : Drv T) (it x : Item T) (b : Bool) (more : List (Item T)) (ht : s.thread = .sending it b) (hq : s.queue = [])
    (hs : s.stepCb (.done (.append x :: more.map .append) none) = some s') :
    s'.thread = .sending x false ∧ s'.queue = more ∧ ∃ notes, s'.log = s.log ++ notes ++ [.start x false] ∧
      .callback it ∈ notes ∧ .idle ∉ notes := by
  have hf : ∀ (m : List (Item T)) (q : Drv T), ((m.map CbOp.append).foldl Drv.cbCall q).queue = q.queue ++ m := by
    intro m
    induction m with
    | nil => simp
    | cons y r ih => intro q; simp [Drv.cbCall, ih]
  obtain ⟨q, p, t, d, l⟩ := s
  simp only at ht hq
  subst ht hq
  have hk := stepCb_run _ _ _ hs
  rw [RDOp.ops, Drv.run_append, calls_run _ _ it b rfl] at hk
  simp only [Option.bind_some] at hk
  have h1 := hf (x :: more) ⟨[], p, .sending it b, d, l⟩
  obtain ⟨h2, h3⟩ := cbCall_thread ((x :: more).map CbOp.append) ⟨[], p, .sending it b, d, l⟩
  simp only [List.map_cons] at h1 h2 h3
  have hc : it.hasCb = true := by
    cases hc : it.hasCb with
    | true => rfl
    | false => simp [Drv.stepCb, Drv.complete, hc] at hs
  revert hk
  generalize List.foldl Drv.cbCall _ (CbOp.append x :: more.map CbOp.append) = s2 at h1 h2 h3 ⊢
  obtain ⟨q2, p2, t2, d2, l2⟩ := s2
  simp only [List.nil_append] at h1 h2 h3
  subst h1 h2 h3
  intro hk
  simp only [Drv.run, Drv.step, Drv.inner, Option.some.injEq] at hk
  subst hk
  refine ⟨rfl, rfl, notify it, rfl, by simp [notify, hc], ?_⟩
  unfold notify
  cases it.hasEvent <;> cases it.hasCb <;> simp

/-- **C110**, notifications: what is observed is the complete records of the completed sends, in order: start, event, callback, with
nothing in between, whatever the callbacks do; and at most one more start. -/
theorem C110_notifications (h : List (RDOp T)) (s : Drv T) (hr : Drv.init.runCb h = some s) :
    ∃ cs : List (Item T × Bool), cs.length = cbCompletions h ∧
      (visible s.log = cs.flatMap fullRecord ∨ ∃ it b, visible s.log = cs.flatMap fullRecord ++ [.start it b]) ∧
      (∀ it b, s.thread = .sending it b → visible s.log = cs.flatMap fullRecord ++ [.start it b]) := by
  obtain ⟨cs, h1, h2, h3, _⟩ := C13_notifications _ s (runCb_run h _ s hr)
  exact ⟨cs, by rw [h1, ops_completions h _ s hr], h2, h3⟩

/-- **C110**: without exceptions and `kill` the coroutine goes on for ever. -/
theorem C110_alive (h : List (RDOp T)) (s : Drv T) (hr : Drv.init.runCb h = some s)
    (hf : ∀ o ∈ h, o ≠ .plain .kill ∧ (∀ e, o ≠ .plain (.sendRaise e)) ∧ ∀ calls e, o ≠ .done calls (some e)) : alive s := by
  refine C14_no_failure_partial _ s (runCb_run h _ s hr) ?_
  intro o ho
  obtain ⟨r, h1, h2⟩ := List.mem_flatMap.1 ho
  obtain ⟨f1, f2, f3⟩ := hf r h1
  have hbad : ∀ e, r ≠ .plain (.callbackRaise e) := by
    intro e he
    subst he
    obtain ⟨a, b, hab⟩ := List.append_of_mem h1
    subst hab
    have : ∀ (l : List (RDOp T)) (q : Drv T), q.runCb (l ++ .plain (.callbackRaise e) :: b) = none := by
      intro l
      induction l with
      | nil => intro q; rfl
      | cons o r ih =>
        intro q
        simp only [List.cons_append, Drv.runCb]
        split
        · rfl
        · exact ih _
    rw [this] at hr
    cases hr
  cases r with
  | plain p =>
    simp only [RDOp.ops, List.mem_singleton] at h2
    subst h2
    exact ⟨fun hk => f1 (hk ▸ rfl), fun e => ⟨fun hk => f2 e (hk ▸ rfl), fun hk => hbad e (hk ▸ rfl)⟩⟩
  | done calls exc =>
    cases exc with
    | some e => exact absurd rfl (f3 calls e)
    | none =>
      simp only [RDOp.ops, List.mem_append, List.mem_map, List.mem_singleton] at h2
      rcases h2 with ⟨c, _, rfl⟩ | rfl
      · cases c <;> simp [CbOp.op]
      · simp

/-! ### Examples -/

/-- a transaction whose callback appends two more; the first of these clears the queue and appends a last one -/
def exChain : List (RDOp Nat) :=
  [.plain (.append (exItem 1)), .plain .run, .done [.append (exItem 2), .append (exItem 3)] none, .done [.clear, .append (exItem 4)] none, .done [] none]

example : (Drv.init.runCb exChain).map (fun s => (started s.log, s.queue, s.thread)) =
    some ([(exItem 1, true), (exItem 2, false), (exItem 4, false)], [], .waiting) ∧ allAppended exChain = [exItem 1, exItem 2, exItem 3, exItem 4] := by decide

example : ∃ s, Drv.init.runCb (exChain.take 3) = some s ∧ NoClear (exChain.take 3) ∧ allAppended (exChain.take 3) = [exItem 1, exItem 2, exItem 3] ∧
    alive s ∧ s.queue ≠ [] := by
  refine ⟨_, rfl, ⟨by decide, ?_⟩, by decide, ⟨by decide, ?_⟩, by decide⟩
  · intro calls exc hm
    simp only [exChain, List.take_succ_cons, List.take_zero, List.mem_cons, List.not_mem_nil, or_false, RDOp.done.injEq, reduceCtorEq, false_or] at hm
    rw [hm.1]; decide
  · intro e he; cases he

example : ∃ s s' : Drv Nat, Drv.init.runCb (exChain.take 2) = some s ∧ s.thread = .sending (exItem 1) true ∧ s.queue = [] ∧
    s.stepCb (.done (.append (exItem 2) :: [exItem 3].map .append) none) = some s' := ⟨_, _, rfl, rfl, rfl, rfl⟩

example : ∃ s0 s : Drv Nat, Drv.init.runCb (exChain.take 3) = some s0 ∧ s0.thread = .sending (exItem 2) false ∧
    s0.stepCb (.done ([] ++ .clear :: [.append (exItem 4)]) none) = some s ∧ (started s.log).map Prod.fst = [exItem 1, exItem 2, exItem 4] := ⟨_, _, rfl, rfl, rfl, by decide⟩

end CocotbBus
