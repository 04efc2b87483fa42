import Verif.Proof.Driver
import Verif.Spec.SharedObj

/-! # Transactions that are objects -/

namespace CocotbBus
open Spec
variable {V : Type}

/-! ### The send queue -/

theorem waitingObjs_outer (d : Drv Nat) (heap : Nat → V) (sh : List (Nat × V)) :
    waitingObjs (⟨d.outer, heap, sh, false⟩ : ObjDrv V) = d.queue.map Item.txn := by
  cases hq : d.queue with
  | nil => simp only [Drv.outer, hq, Drv.waitPending, waitingObjs]; cases d.pending <;> simp
  | cons it q => simp [Drv.outer, hq, waitingObjs]

theorem waitingObjs_inner (d : Drv Nat) (heap : Nat → V) (sh : List (Nat × V)) :
    waitingObjs (⟨d.inner, heap, sh, false⟩ : ObjDrv V) = d.queue.map Item.txn := by
  cases hq : d.queue with
  | nil => simp only [Drv.inner, hq]; rw [waitingObjs_outer, hq]
  | cons it q => simp [Drv.inner, hq, waitingObjs]

/-- What was taken from the objects, then the objects waiting with their contents. -/
def objStream (s : ObjDrv V) : List (Nat × V) := s.shown ++ (waitingObjs s).map (fun r => (r, s.heap r))

/-- Steps that drop transactions. -/
def drops : ObjOp V → Bool
  | .other .clear => true
  | .other .kill => true
  | .other (.sendRaise _) => true
  | .other (.callbackRaise _) => true
  | _ => false

theorem objStep_keeps (s s' : ObjDrv V) (o : ObjOp V) (h : s.step o = some s') (hd : drops o = false)
    (hn : ∀ r v, o = .change r v → r ∉ waitingObjs s) : objStream s' = objStream s ++ appendedAs s.heap [o] := by
  cases o with
  | change r v =>
    simp only [ObjDrv.step, Option.some.injEq] at h
    subst h
    have hr := hn r v rfl
    have hw : waitingObjs ({ s with heap := fun r' => if r' = r then v else s.heap r' } : ObjDrv V) = waitingObjs s := rfl
    simp only [objStream, hw, appendedAs, List.append_nil]
    congr 1
    apply List.map_congr_left
    intro x hx
    have : x ≠ r := fun e => hr (e ▸ hx)
    simp [this]
  | look =>
    simp only [ObjDrv.step] at h
    cases ht : s.drv.thread with
    | sending it b =>
      rw [ht] at h
      simp only at h
      split at h
      · cases h
      · rename_i hl
        simp only [Option.some.injEq] at h
        subst h
        simp [objStream, waitingObjs, ht, hl, appendedAs]
    | _ => rw [ht] at h; simp at h
  | other o =>
    cases o with
    | append it =>
      simp only [ObjDrv.step, Drv.step, Option.map_some, Option.some.injEq] at h
      subst h
      cases ht : s.drv.thread <;> simp [objStream, waitingObjs, ht, appendedAs]
    | clear => simp [drops] at hd
    | kill => simp [drops] at hd
    | sendRaise e => simp [drops] at hd
    | callbackRaise e => simp [drops] at hd
    | run =>
      simp only [ObjDrv.step, Drv.step] at h
      cases ht : s.drv.thread <;> rw [ht] at h <;> simp only [Option.map_none, Option.map_some, reduceCtorEq, Option.some.injEq] at h <;> subst h <;>
        simp only [objStream, waitingObjs_outer, appendedAs, List.append_nil] <;> simp [waitingObjs, ht]
    | sendDone =>
      simp only [ObjDrv.step, Drv.step] at h
      split at h
      · rename_i hl
        cases ht : s.drv.thread <;> rw [ht] at h <;> simp only [Option.map_none, Option.map_some, reduceCtorEq, Option.some.injEq] at h
        subst h
        simp only [objStream, waitingObjs_inner, appendedAs, List.append_nil]
        simp [waitingObjs, ht, hl]
      · cases h
    | send t =>
      simp only [ObjDrv.step, Drv.step, Option.map_some, Option.some.injEq] at h
      subst h
      simp [objStream, waitingObjs, appendedAs]
    | sendReturn i =>
      simp only [ObjDrv.step, Drv.step] at h
      split at h
      · simp only [Option.map_some, Option.some.injEq] at h
        subst h
        simp [objStream, waitingObjs, appendedAs]
      · cases h

theorem objStep_drops (s s' : ObjDrv V) (o : ObjOp V) (h : s.step o = some s') (hd : drops o = true) :
    (objStream s').Sublist (objStream s) ∧ appendedAs s.heap [o] = [] := by
  have key : ∀ d : Drv Nat, s' = { s with drv := d } → (d.queue = s.drv.queue ∧ (∀ it b, d.thread ≠ .sending it b) ∨ d.queue = [] ∧ d.thread = s.drv.thread) →
      (objStream s').Sublist (objStream s) := by
    intro d e hq
    subst e
    simp only [objStream, waitingObjs]
    refine List.Sublist.append_left (List.Sublist.map _ ?_) _
    rcases hq with ⟨hq, ht⟩ | ⟨hq, ht⟩
    · rw [hq]
      refine List.Sublist.append ?_ (List.Sublist.refl _)
      cases h' : d.thread with
      | sending it b => exact absurd h' (ht it b)
      | _ => exact List.nil_sublist _
    · rw [hq, ht]
      simp
  cases o with
  | change r v => simp [drops] at hd
  | look => simp [drops] at hd
  | other o =>
    cases o <;> simp only [drops, Bool.false_eq_true] at hd
    · simp only [ObjDrv.step, Drv.step, Option.map_some, Option.some.injEq] at h
      exact ⟨key _ h.symm (Or.inr ⟨rfl, rfl⟩), rfl⟩
    · simp only [ObjDrv.step, Drv.step, Option.map_some, Option.some.injEq] at h
      exact ⟨key _ h.symm (Or.inl ⟨rfl, by cases s.drv.thread <;> simp⟩), rfl⟩
    · simp only [ObjDrv.step, Drv.step] at h
      split at h <;> simp only [Option.map_none, Option.map_some, reduceCtorEq, Option.some.injEq] at h
      exact ⟨key _ h.symm (Or.inl ⟨rfl, by simp⟩), rfl⟩
    · simp only [ObjDrv.step, Drv.step] at h
      split at h
      · split at h
        · split at h
          · simp only [Option.map_some, Option.some.injEq] at h
            exact ⟨key _ h.symm (Or.inl ⟨rfl, by simp⟩), rfl⟩
          · cases h
        · cases h
      · cases h

/-- The contents at the end of a history. -/
def heapAfter : (Nat → V) → List (ObjOp V) → Nat → V
  | heap, [] => heap
  | heap, .change r v :: h => heapAfter (fun r' => if r' = r then v else heap r') h
  | heap, _ :: h => heapAfter heap h

theorem appendedAs_cons (heap : Nat → V) (o : ObjOp V) (h : List (ObjOp V)) :
    appendedAs heap (o :: h) = appendedAs heap [o] ++ appendedAs (heapAfter heap [o]) h := by
  cases o with
  | change r v => simp [appendedAs, heapAfter]
  | look => simp [appendedAs, heapAfter]
  | other o => cases o <;> simp [appendedAs, heapAfter]

theorem objStep_heap (s s' : ObjDrv V) (o : ObjOp V) (h : s.step o = some s') : s'.heap = heapAfter s.heap [o] := by
  cases o with
  | change r v => simp only [ObjDrv.step, Option.some.injEq] at h; subst h; rfl
  | look =>
    simp only [ObjDrv.step] at h
    split at h
    · split at h
      · cases h
      · simp only [Option.some.injEq] at h; subst h; rfl
    · cases h
  | other o =>
    cases o <;> simp only [ObjDrv.step] at h <;> first
      | (obtain ⟨d, -, rfl⟩ := Option.map_eq_some_iff.mp h; rfl)
      | (split at h
         · obtain ⟨d, -, rfl⟩ := Option.map_eq_some_iff.mp h; rfl
         · cases h)

theorem objRun_keeps : ∀ (h : List (ObjOp V)) (s s' : ObjDrv V), s.run h = some s' → (∀ o ∈ h, drops o = false) → NotChangedWaiting s h →
    objStream s' = objStream s ++ appendedAs s.heap h := by
  intro h
  induction h with
  | nil => intro s s' hr _ _; simp only [ObjDrv.run, Option.some.injEq] at hr; subst hr; simp [appendedAs]
  | cons o h ih =>
    intro s s' hr hd hn
    simp only [ObjDrv.run] at hr
    split at hr
    · cases hr
    · rename_i s1 h1
      rw [ih s1 s' hr (fun o ho => hd o (by simp [ho])) (hn.2 s1 h1), objStep_keeps s s1 o h1 (hd o (by simp)) hn.1, appendedAs_cons s.heap o h, objStep_heap s s1 o h1,
        List.append_assoc]

theorem objRun_sublist : ∀ (h : List (ObjOp V)) (s s' : ObjDrv V) (acc : List (Nat × V)), s.run h = some s' → NotChangedWaiting s h →
    (objStream s).Sublist acc → (objStream s').Sublist (acc ++ appendedAs s.heap h) := by
  intro h
  induction h with
  | nil => intro s s' acc hr _ ha; simp only [ObjDrv.run, Option.some.injEq] at hr; subst hr; simpa [appendedAs] using ha
  | cons o h ih =>
    intro s s' acc hr hn ha
    simp only [ObjDrv.run] at hr
    split at hr
    · cases hr
    · rename_i s1 h1
      rw [appendedAs_cons, ← objStep_heap s s1 o h1, ← List.append_assoc]
      refine ih s1 s' _ hr (hn.2 s1 h1) ?_
      cases hd : drops o with
      | false => rw [objStep_keeps s s1 o h1 hd hn.1]; exact List.Sublist.append ha (List.Sublist.refl _)
      | true =>
        obtain ⟨h2, h3⟩ := objStep_drops s s1 o h1 hd
        rw [h3, List.append_nil]
        exact h2.trans ha

theorem waiting_step (s s' : ObjDrv V) (o : ObjOp V) (h : s.step o = some s') :
    ∀ r ∈ waitingObjs s', r ∈ waitingObjs s ∨ ∃ it, o = .other (.append it) ∧ r = it.txn := by
  intro r hr
  cases hd : drops o with
  | true =>
    left
    have := (objStep_drops s s' o h hd).1
    have hsh : s'.shown = s.shown := by
      cases o with
      | change r v => simp [drops] at hd
      | look => simp [drops] at hd
      | other o =>
        cases o <;> simp only [drops, Bool.false_eq_true] at hd <;> simp only [ObjDrv.step] at h <;> first
          | (obtain ⟨d, -, rfl⟩ := Option.map_eq_some_iff.mp h; rfl)
          | (split at h
             · obtain ⟨d, -, rfl⟩ := Option.map_eq_some_iff.mp h; rfl
             · cases h)
    rw [objStream, objStream, hsh] at this
    have := (List.append_sublist_append_left _).mp this
    have := this.map Prod.fst
    simp only [List.map_map, Function.comp_def, List.map_id'] at this
    exact this.subset hr
  | false =>
    cases o with
    | change r v => simp only [ObjDrv.step, Option.some.injEq] at h; subst h; exact Or.inl hr
    | look =>
      left
      simp only [ObjDrv.step] at h
      split at h
      · rename_i it b ht
        split at h
        · cases h
        · simp only [Option.some.injEq] at h
          subst h
          simp only [waitingObjs, ht, if_true, List.nil_append] at hr
          simp only [waitingObjs, List.mem_append]
          exact Or.inr hr
      · cases h
    | other o =>
      have hk := objStep_keeps s s' (.other o) h hd (by intro r v e; cases e)
      have hsh : s'.shown = s.shown := by
        cases o <;> simp only [ObjDrv.step] at h <;> first
          | (obtain ⟨d, -, rfl⟩ := Option.map_eq_some_iff.mp h; rfl)
          | (split at h
             · obtain ⟨d, -, rfl⟩ := Option.map_eq_some_iff.mp h; rfl
             · cases h)
      rw [objStream, objStream, hsh, List.append_assoc, List.append_cancel_left_eq] at hk
      have := congrArg (List.map Prod.fst) hk
      simp only [List.map_map, Function.comp_def, List.map_id', List.map_append] at this
      rw [this, List.mem_append] at hr
      rcases hr with hr | hr
      · exact Or.inl hr
      · right
        cases o <;> simp only [appendedAs, List.map_nil, List.not_mem_nil] at hr
        rename_i it
        exact ⟨it, rfl, by simpa using hr⟩

/-- Objects that are not changed after they were appended are not changed while they wait. -/
theorem notChangedLater_waiting : ∀ (h : List (ObjOp V)) (s : ObjDrv V) (given : List Nat), NotChangedLater given h → (∀ r ∈ waitingObjs s, r ∈ given) →
    NotChangedWaiting s h := by
  intro h
  induction h with
  | nil => intro s given _ _; trivial
  | cons o h ih =>
    intro s given hl hw
    have hn : ∀ r v, o = .change r v → r ∉ waitingObjs s := by
      intro r v e
      subst e
      exact fun hr => hl.1 (hw r hr)
    refine ⟨hn, fun s' hs => ?_⟩
    have hsub := waiting_step s s' o hs
    cases o with
    | change r v => exact ih s' given hl.2 (fun r hr => (hsub r hr).elim (hw r) (fun ⟨_, e, _⟩ => by cases e))
    | look => exact ih s' given hl (fun r hr => (hsub r hr).elim (hw r) (fun ⟨_, e, _⟩ => by cases e))
    | other o =>
      cases o with
      | append it =>
        refine ih s' (it.txn :: given) hl (fun r hr => (hsub r hr).elim (fun h => List.mem_cons_of_mem _ (hw r h)) ?_)
        rintro ⟨it', e, rfl⟩
        cases e
        simp
      | _ => exact ih s' given hl (fun r hr => (hsub r hr).elim (hw r) (fun ⟨_, e, _⟩ => by cases e))

/-! ### The callbacks of a monitor -/

theorem smon_after (m : SMon V) (s : CbLoop V) (h : s.exc = none) :
    m.after s = { m with received := m.received + 1, cbs := s.cbs, calls := s.calls, queue := (if s.cbs.isEmpty then m.queue ++ [s.obj] else m.queue),
                         eventSets := (if m.hasEvent then m.eventSets ++ [s.obj] else m.eventSets), waitData := some s.obj } := by
  simp only [SMon.after, h]
  cases s.cbs.isEmpty <;> cases m.hasEvent <;> rfl

theorem cbStep_some {beh : CbBeh V} {s s' : CbLoop V} (h : s.step beh = some s') :
    s.exc = none ∧ ∃ k, s.cbs[s.idx]? = some k ∧
      s' = { idx := s.idx + 1, cbs := s.cbs ++ (beh s.calls k s.obj).adds, obj := (beh s.calls k s.obj).changes.getD s.obj, calls := s.calls ++ [(k, s.obj)],
             exc := (beh s.calls k s.obj).raises } := by
  unfold CbLoop.step at h
  split at h
  · cases h
  · rename_i he
    split at h
    · cases h
    · rename_i k hk
      simp only [Option.some.injEq] at h
      exact ⟨he, k, hk, h.symm⟩

theorem addedBy_append (beh : CbBeh V) (a b : List (Nat × V)) : ∀ before, addedBy beh before (a ++ b) = addedBy beh before a ++ addedBy beh (before ++ a) b := by
  induction a with
  | nil => intro before; simp [addedBy]
  | cons c a ih => intro before; simp [addedBy, ih]

theorem sawInTurn_append (beh : CbBeh V) (a : List (Nat × V)) (c : Nat × V) : ∀ before v, SawInTurn beh before v a →
    c.2 = (a.foldl (fun p q => (p.1 ++ [q], (beh p.1 q.1 p.2).changes.getD p.2)) (before, v)).2 → SawInTurn beh before v (a ++ [c]) := by
  induction a with
  | nil => intro before v _ hc; exact ⟨hc, trivial⟩
  | cons d a ih => intro before v h hc; exact ⟨h.1, ih _ _ h.2 hc⟩

/-- What holds of the loop after `n` iterations. -/
theorem cbSteps_inv (beh : CbBeh V) : ∀ (n : Nat) (s s' : CbLoop V) (before new : List (Nat × V)) (cbs0 : List Nat) (v : V),
    s.calls = before ++ new → s.idx = new.length → s.cbs = cbs0 ++ addedBy beh before new → new.map Prod.fst = s.cbs.take new.length →
    SawInTurn beh before v new → s.obj = (new.foldl (fun p q => (p.1 ++ [q], (beh p.1 q.1 p.2).changes.getD p.2)) (before, v)).2 →
    s.steps beh n = some s' →
    ∃ new', s'.calls = before ++ new' ∧ s'.idx = new'.length ∧ new'.length = new.length + n ∧ s'.cbs = cbs0 ++ addedBy beh before new' ∧
      new'.map Prod.fst = s'.cbs.take new'.length ∧ SawInTurn beh before v new' ∧
      s'.obj = (new'.foldl (fun p q => (p.1 ++ [q], (beh p.1 q.1 p.2).changes.getD p.2)) (before, v)).2 := by
  intro n
  induction n with
  | zero =>
    intro s s' before new cbs0 v h1 h2 h3 h4 h5 h6 h
    simp only [CbLoop.steps, Option.some.injEq] at h
    subst h
    exact ⟨new, h1, h2, rfl, h3, h4, h5, h6⟩
  | succ n ih =>
    intro s s' before new cbs0 v h1 h2 h3 h4 h5 h6 h
    simp only [CbLoop.steps] at h
    split at h
    · cases h
    · rename_i s1 hs1
      obtain ⟨-, k, hk, e⟩ := cbStep_some hs1
      obtain ⟨new', g1, g2, g3, g4, g5, g6, g7⟩ := ih s1 s' before (new ++ [(k, s.obj)]) cbs0 v (by rw [e]; simp [h1]) (by rw [e]; simp [h2])
        (by rw [e, addedBy_append]; simp [addedBy, h1, h3])
        (by
          rw [e]
          have hlt : s.idx < s.cbs.length := by
            rcases List.getElem?_eq_some_iff.mp hk with ⟨h', -⟩
            exact h'
          rw [List.take_append_of_le_length (by simp; omega)]
          simp only [List.map_append, List.map_cons, List.map_nil, List.length_append, List.length_cons, List.length_nil, h4]
          rw [Nat.zero_add, List.take_succ, ← h2, hk]
          simp)
        (sawInTurn_append beh new _ before v h5 (by rw [← h6]))
        (by
          rw [e, List.foldl_append]
          have hf : ∀ (l : List (Nat × V)) p, (l.foldl (fun p q => (p.1 ++ [q], (beh p.1 q.1 p.2).changes.getD p.2)) p).1 = p.1 ++ l := by
            intro l
            induction l with
            | nil => intro p; simp
            | cons a l ih => intro p; rw [List.foldl_cons, ih]; simp
          simp only [List.foldl_cons, List.foldl_nil]
          rw [← h6, hf, ← h1])
        h
      exact ⟨new', g1, g2, by rw [g3]; simp; omega, g4, g5, g6, g7⟩

end CocotbBus
