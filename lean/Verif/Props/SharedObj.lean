import Verif.Proof.SharedObj

/-! # Properties C111–C113: transactions are objects, and callbacks may register callbacks -/

namespace CocotbBus
open Spec
variable {V : Type}

/-! ### C111 -/

/-- C111: when the handling of a transaction ends without an exception, the callbacks called for it are all that are registered then, once per
registration and in the order of registration: those registered before, then those the callbacks registered, in the order in which they did. It is queued
only if there are none. -/
theorem C111_registered_meanwhile (beh : CbBeh V) (m m' : SMon V) (v : V) (h : m.Recv beh v m' none) :
    ∃ called, m'.calls = m.calls ++ called ∧ called.map Prod.fst = m'.cbs ∧ m'.cbs = m.cbs ++ addedBy beh m.calls called ∧
      m'.received = m.received + 1 ∧ m'.queue = m.queue ++ (if m.cbs = [] then [v] else []) := by
  obtain ⟨n, s, h1, h2, rfl, h3⟩ := h
  obtain ⟨new, g1, g2, g3, g4, g5, -, g7⟩ := cbSteps_inv beh n (m.loop v) s m.calls [] m.cbs v (by simp [SMon.loop]) rfl (by simp [SMon.loop, addedBy]) (by simp) trivial
    (by simp [SMon.loop]) h1
  have hlen : s.cbs.length ≤ new.length := by
    unfold CbLoop.step at h2
    rw [← h3] at h2
    simp only at h2
    split at h2
    · rename_i hk
      rw [List.getElem?_eq_none_iff] at hk
      omega
    · cases h2
  rw [smon_after m s h3.symm]
  refine ⟨new, g1, by rw [g5, List.take_of_length_le hlen], g4, rfl, ?_⟩
  simp only
  by_cases hc : m.cbs = []
  · have hn : new = [] := by
      cases n with
      | zero => exact List.eq_nil_of_length_eq_zero (by simpa using g3)
      | succ n =>
        simp only [CbLoop.steps, CbLoop.step, SMon.loop, hc] at h1
        simp at h1
    subst hn
    rw [g4, hc, g7]
    simp [addedBy]
  · rw [g4]
    simp [hc]

/-- C111, an exception: the callbacks called are the first ones, in order, up to the one that raised; nothing is queued and neither the event nor
those waiting for a transaction are told. -/
theorem C111_exception (beh : CbBeh V) (m m' : SMon V) (v : V) (e : PyErr) (h : m.Recv beh v m' (some e)) :
    ∃ called, m'.calls = m.calls ++ called ∧ called.map Prod.fst <+: m'.cbs ∧ m'.cbs = m.cbs ++ addedBy beh m.calls called ∧
      m'.received = m.received + 1 ∧ m'.queue = m.queue ∧ m'.eventSets = m.eventSets ∧ m'.waitData = m.waitData := by
  obtain ⟨n, s, h1, h2, rfl, h3⟩ := h
  obtain ⟨new, g1, g2, g3, g4, g5, -, -⟩ := cbSteps_inv beh n (m.loop v) s m.calls [] m.cbs v (by simp [SMon.loop]) rfl (by simp [SMon.loop, addedBy]) (by simp) trivial
    (by simp [SMon.loop]) h1
  have ha : m.after s = { m with received := m.received + 1, cbs := s.cbs, calls := s.calls } := by simp only [SMon.after, ← h3]
  rw [ha]
  exact ⟨new, g1, by rw [g5]; exact List.take_prefix _ _, g4, rfl, rfl, rfl, rfl⟩

/-- C111: the handling ends if from some number of calls on no callback registers another. -/
theorem C111_ends (beh : CbBeh V) (N : Nat) (hN : ∀ calls k v, N ≤ calls.length → (beh calls k v).adds = []) (m : SMon V) (v : V) :
    ∃ m' exc, m.Recv beh v m' exc := by
  have key : ∀ (d : Nat) (s : CbLoop V), (N - s.calls.length) + 0 ≤ d → ∃ n s', s.steps beh n = some s' ∧ s'.step beh = none := by
    have late : ∀ (d : Nat) (s : CbLoop V), N ≤ s.calls.length → s.cbs.length - s.idx ≤ d → ∃ n s', s.steps beh n = some s' ∧ s'.step beh = none := by
      intro d
      induction d with
      | zero =>
        intro s hs hd
        refine ⟨0, s, rfl, ?_⟩
        unfold CbLoop.step
        have : s.cbs[s.idx]? = none := List.getElem?_eq_none_iff.mpr (by omega)
        rw [this]
        cases s.exc <;> rfl
      | succ d ih =>
        intro s hs hd
        cases h : s.step beh with
        | none => exact ⟨0, s, rfl, h⟩
        | some s1 =>
          obtain ⟨-, k, hk, e⟩ := cbStep_some h
          have hlt := (List.getElem?_eq_some_iff.mp hk).1
          obtain ⟨n, s', h1, h2⟩ := ih s1 (by rw [e]; simp; omega) (by rw [e, hN _ _ _ hs]; simp; omega)
          exact ⟨n + 1, s', by rw [CbLoop.steps, h]; exact h1, h2⟩
    intro d
    induction d with
    | zero => intro s hs; exact late _ s (by omega) (Nat.le_refl _)
    | succ d ih =>
      intro s hs
      cases h : s.step beh with
      | none => exact ⟨0, s, rfl, h⟩
      | some s1 =>
        obtain ⟨-, k, hk, e⟩ := cbStep_some h
        obtain ⟨n, s', h1, h2⟩ := ih s1 (by rw [e]; simp; omega)
        exact ⟨n + 1, s', by rw [CbLoop.steps, h]; exact h1, h2⟩
  obtain ⟨n, s', h1, h2⟩ := key _ (m.loop v) (Nat.le_refl _)
  exact ⟨_, _, n, s', h1, h2, rfl, rfl⟩

/-- C111: and it never ends, if every callback registers one (for example itself, to see the next transaction too): the simulation hangs at the first
transaction. -/
theorem C111_violated (beh : CbBeh V) (hadd : ∀ calls k v, (beh calls k v).adds ≠ [] ∧ (beh calls k v).raises = none) (m : SMon V) (hc : m.cbs ≠ []) (v : V) :
    ¬ ∃ m' exc, m.Recv beh v m' exc := by
  rintro ⟨m', exc, n, s, h1, h2, -, -⟩
  have key : ∀ (n : Nat) (s s' : CbLoop V), s.exc = none → s.idx < s.cbs.length → s.steps beh n = some s' → s'.exc = none ∧ s'.idx < s'.cbs.length := by
    intro n
    induction n with
    | zero => intro s s' he hi h; simp only [CbLoop.steps, Option.some.injEq] at h; subst h; exact ⟨he, hi⟩
    | succ n ih =>
      intro s s' he hi h
      simp only [CbLoop.steps] at h
      split at h
      · cases h
      · rename_i s1 hs1
        obtain ⟨-, k, hk, e⟩ := cbStep_some hs1
        refine ih s1 s' (by rw [e]; exact (hadd _ _ _).2) ?_ h
        have := List.length_pos_iff.mpr (hadd s.calls k s.obj).1
        rw [e]
        simp only [List.length_append]
        omega
  obtain ⟨he, hi⟩ := key n _ s rfl (by simpa [SMon.loop] using List.length_pos_iff.mpr hc) h1
  unfold CbLoop.step at h2
  rw [he, List.getElem?_eq_getElem hi] at h2
  cases h2

/-- Callback 0 registers callbacks 1 and 2 at its first call, callback 1 registers callback 3 at its first; the others do nothing. -/
def exAddBeh : CbBeh Nat := fun calls k _ =>
  if k = 0 ∧ calls.all (fun c => c.1 != 0) then { adds := [1, 2] } else if k = 1 ∧ calls.all (fun c => c.1 != 1) then { adds := [3] } else {}

example : (⟨0, [0], [], [], false, [], none⟩ : SMon Nat).Recv exAddBeh 7 ⟨1, [0, 1, 2, 3], [(0, 7), (1, 7), (2, 7), (3, 7)], [], false, [], some 7⟩ none :=
  ⟨4, _, rfl, rfl, rfl, rfl⟩
example : ∀ calls k v, (fun _ k _ => ({ adds := [k] } : CbDoes Nat) : CbBeh Nat) calls k v = { adds := [k] } := fun _ _ _ => rfl
example : (⟨0, [5, 6], [], [], true, [], none⟩ : SMon Nat).Recv (fun _ _ _ => { adds := [9], raises := some .valueError }) 7
    ⟨1, [5, 6, 9], [(5, 7)], [], true, [], none⟩ (some .valueError) := ⟨1, _, rfl, rfl, rfl, rfl⟩

/-! ### C112 -/

/-- C112 is false of the code: the queue holds references. An object is filled and appended twice with different contents; both times the
contents of the second are sent. -/
theorem C112_violated :
    let h : List (ObjOp Nat) := [.change 0 10, .other (.append ⟨0, false, false⟩), .change 0 20, .other (.append ⟨0, false, false⟩),
      .other .run, .look, .other .sendDone, .look, .other .sendDone]
    appendedAs (fun _ => 0) h = [(0, 10), (0, 20)] ∧ ((ObjDrv.init (fun _ => 0)).run h).map ObjDrv.shown = some [(0, 20), (0, 20)] := by decide

/-- C112, the part that holds: if no object is changed while it waits (is queued, or its send has not looked at it yet), then as long as nothing is
cleared, killed or fails, what was sent, followed by what waits, is what was appended, with the contents at the time of the call and in order. -/
theorem C112_unchanged_partial (heap : Nat → V) (h : List (ObjOp V)) (s : ObjDrv V) (hr : (ObjDrv.init heap).run h = some s)
    (hd : ∀ o ∈ h, ∀ e, o ≠ .other .clear ∧ o ≠ .other .kill ∧ o ≠ .other (.sendRaise e) ∧ o ≠ .other (.callbackRaise e))
    (hn : NotChangedWaiting (ObjDrv.init heap) h) :
    s.shown ++ (waitingObjs s).map (fun r => (r, s.heap r)) = appendedAs heap h := by
  have := objRun_keeps h _ s hr (fun o ho => by
    cases o with
    | change r v => rfl
    | look => rfl
    | other o => cases o <;> first | rfl | (exfalso; have := hd _ ho; simp at this)) hn
  simpa [objStream, ObjDrv.init, waitingObjs, Drv.init] using this

/-- C112, the part that holds of all histories: what was sent is, in order and with the contents at the time of the call, part of what was
appended. -/
theorem C112_sent_partial (heap : Nat → V) (h : List (ObjOp V)) (s : ObjDrv V) (hr : (ObjDrv.init heap).run h = some s)
    (hn : NotChangedWaiting (ObjDrv.init heap) h) : s.shown.Sublist (appendedAs heap h) := by
  have := objRun_sublist h _ s [] hr hn (by simp [objStream, ObjDrv.init, waitingObjs, Drv.init])
  rw [List.nil_append] at this
  exact (List.sublist_append_left _ _).trans this

/-- C112: the condition holds if objects are not changed once they were appended. -/
theorem C112_later_partial (heap : Nat → V) (h : List (ObjOp V)) (s : ObjDrv V) (hr : (ObjDrv.init heap).run h = some s) (hn : NotChangedLater [] h) :
    s.shown.Sublist (appendedAs heap h) :=
  C112_sent_partial heap h s hr (notChangedLater_waiting h _ [] hn (by simp [waitingObjs, ObjDrv.init, Drv.init]))

/-! An object that is used again after its send has looked at it. -/

def exReuse : List (ObjOp Nat) := [.change 0 10, .other (.append ⟨0, false, false⟩), .other .run, .look, .change 0 20, .other (.append ⟨0, false, false⟩),
  .other .sendDone, .look, .other .sendDone]
example : ((ObjDrv.init (fun _ => 0)).run exReuse).map ObjDrv.shown = some [(0, 10), (0, 20)] := by decide
example : NotChangedWaiting (ObjDrv.init (fun _ => 0)) exReuse := by
  simp only [exReuse, NotChangedWaiting, ObjDrv.step, ObjDrv.init, Drv.init, Drv.step, Drv.outer, Drv.inner, Drv.waitPending, Option.map_some, Option.some.injEq]
  refine ⟨by rintro r v h; cases h; decide, ?_⟩
  rintro s rfl
  simp [waitingObjs]
example : NotChangedLater (V := Nat) [] [.change 0 10, .other (.append ⟨0, false, false⟩), .change 1 20, .other (.append ⟨1, true, false⟩), .other .run, .look] := by
  simp [NotChangedLater]

/-! ### C113 -/

/-- C113, what the code does: the first callback sees the transaction as it was received, each further one as the one before left it; the event and
those waiting get it as the last one left it. -/
theorem C113_exact (beh : CbBeh V) (m m' : SMon V) (v : V) (h : m.Recv beh v m' none) :
    ∃ called w, m'.calls = m.calls ++ called ∧ SawInTurn beh m.calls v called ∧ m'.waitData = some w ∧
      m'.eventSets = m.eventSets ++ (if m.hasEvent then [w] else []) ∧ (∀ k, SawInTurn beh m.calls v (called ++ [(k, w)])) := by
  obtain ⟨n, s, h1, h2, rfl, h3⟩ := h
  obtain ⟨new, g1, g2, g3, g4, g5, g6, g7⟩ := cbSteps_inv beh n (m.loop v) s m.calls [] m.cbs v (by simp [SMon.loop]) rfl (by simp [SMon.loop, addedBy]) (by simp) trivial
    (by simp [SMon.loop]) h1
  rw [smon_after m s h3.symm]
  refine ⟨new, s.obj, g1, g6, rfl, ?_, fun k => sawInTurn_append beh new _ _ _ g6 g7⟩
  cases m.hasEvent <;> simp

/-- C113 is false of the code: a callback that changes the transaction changes it for the callbacks after it, the event and those waiting. Here the
monitor reports the channel (`{"data": ..., "channel": ...}`), and the first callback strips the header from the data. -/
theorem C113_violated :
    let beh : CbBeh (List Nat × Nat) := fun _ k t => if k = 0 then { changes := some (t.1.drop 2, t.2) } else {}
    (⟨0, [0, 1], [], [], true, [], none⟩ : SMon (List Nat × Nat)).Recv beh ([1, 2, 3, 4], 5)
      ⟨1, [0, 1], [(0, [1, 2, 3, 4], 5), (1, [3, 4], 5)], [], true, [([3, 4], 5)], some ([3, 4], 5)⟩ none := ⟨2, _, rfl, rfl, rfl, rfl⟩

theorem sawInTurn_alone (beh : CbBeh V) (hl : LeaveAlone beh) (l : List (Nat × V)) : ∀ before v, SawInTurn beh before v l → ∀ c ∈ l, c.2 = v := by
  induction l with
  | nil => intro before v _ c hc; simp at hc
  | cons d l ih =>
    intro before v h c hc
    obtain ⟨h1, h2⟩ := h
    rw [hl] at h2
    rcases List.mem_cons.mp hc with rfl | hc
    · exact h1
    · exact ih _ _ h2 c hc

/-- C113, the part that holds: if the callbacks leave the transactions alone (they must, if these are `bytes`, as without reporting of the channel)
every callback, the event and those waiting get the transaction as it was received. -/
theorem C113_alone_partial (beh : CbBeh V) (hl : LeaveAlone beh) (m m' : SMon V) (v : V) (h : m.Recv beh v m' none) :
    ∃ called, m'.calls = m.calls ++ called ∧ (∀ c ∈ called, c.2 = v) ∧ m'.waitData = some v ∧
      m'.eventSets = m.eventSets ++ (if m.hasEvent then [v] else []) := by
  obtain ⟨called, w, h1, h2, h3, h4, h5⟩ := C113_exact beh m m' v h
  have hw : w = v := sawInTurn_alone beh hl _ _ _ (h5 0) (0, w) (by simp)
  subst hw
  exact ⟨called, h1, sawInTurn_alone beh hl _ _ _ h2, h3, h4⟩

example : LeaveAlone exAddBeh := by
  intro calls k v
  unfold exAddBeh
  split
  · rfl
  · split <;> rfl

end CocotbBus
