import Verif.Spec.DrvKill
import Verif.Props.Driver

/-! # C131: a driver that is killed -/

namespace CocotbBus
open Spec
variable {T : Type}

/-- a history that goes on after the coroutine was killed or has failed -/
theorem run_over (x : Thread T) (hx : x = .killed ∨ ∃ e, x = .dead e) (h : List (DOp T)) : ∀ s s' : Drv T, s.thread = x → s.run h = some s' →
    s'.thread = x ∧ s'.log = s.log ∧ (.clear ∉ h → s'.queue = s.queue ++ appended h) := by
  induction h with
  | nil => intro s s' ht hr; simp only [Drv.run, Option.some.injEq] at hr; subst hr; exact ⟨ht, rfl, by simp [appended]⟩
  | cons o r ih =>
    intro s s' ht hr
    unfold Drv.run at hr
    have keep : ∀ s1 : Drv T, s.step o = some s1 → s1.thread = x → s1.log = s.log → (o ≠ .clear → s1.queue = s.queue ++ appended [o]) →
        s'.thread = x ∧ s'.log = s.log ∧ (.clear ∉ o :: r → s'.queue = s.queue ++ appended (o :: r)) := by
      intro s1 h1 h2 h3 h4
      rw [h1] at hr
      obtain ⟨g1, g2, g3⟩ := ih s1 s' h2 hr
      refine ⟨g1, g2.trans h3, fun hc => ?_⟩
      rw [g3 (fun hx => hc (by simp [hx])), h4 (fun hx => hc (by simp [hx])), List.append_assoc]
      congr 1
      cases o <;> simp [appended]
    cases o with
    | append it => exact keep _ rfl (by rcases hx with rfl | ⟨e, rfl⟩ <;> simp [ht]) rfl (fun _ => rfl)
    | clear => exact keep _ rfl ht rfl (fun hx => absurd rfl hx)
    | kill => exact keep _ rfl (by rcases hx with rfl | ⟨e, rfl⟩ <;> simp [ht]) rfl (fun _ => by simp [appended])
    | run => rcases hx with rfl | ⟨e, rfl⟩ <;> simp [Drv.step, ht] at hr
    | sendDone => rcases hx with rfl | ⟨e, rfl⟩ <;> simp [Drv.step, ht] at hr
    | sendRaise e => rcases hx with rfl | ⟨e, rfl⟩ <;> simp [Drv.step, ht] at hr
    | callbackRaise e => rcases hx with rfl | ⟨e, rfl⟩ <;> simp [Drv.step, ht] at hr
    | send t => exact keep _ rfl ht rfl (fun _ => by simp [appended])
    | sendReturn i =>
      by_cases hi : i < s.direct.length
      · exact keep { s with direct := s.direct.eraseIdx i } (by simp [Drv.step, hi]) ht rfl (fun _ => by simp [appended])
      · simp [Drv.step, hi] at hr

/-- **C131**: from `kill()` on nothing more is sent from the queue and nobody is told anything; what is appended waits for ever. -/
theorem C131_nothing_more (h h' : List (DOp T)) (s0 s : Drv T) (hr0 : Drv.init.run h = some s0) (hr : Drv.init.run (h ++ .kill :: h') = some s) :
    s.log = s0.log ∧ (∀ it b, s.thread ≠ .sending it b) ∧ (.clear ∉ h' → s.queue = s0.queue ++ appended h') := by
  rw [Drv.run_append, hr0] at hr
  simp only [Option.bind_some, Drv.run, Drv.step] at hr
  by_cases hd : ∃ e, s0.thread = .dead e
  · obtain ⟨e, hd⟩ := hd
    obtain ⟨h1, h2, h3⟩ := run_over (.dead e) (.inr ⟨e, rfl⟩) h' _ s (by simp [hd]) hr
    exact ⟨h2, fun it b hx => (by rw [h1] at hx; cases hx), h3⟩
  · obtain ⟨h1, h2, h3⟩ := run_over .killed (.inl rfl) h' _ s (by cases ht : s0.thread <;> simp_all) hr
    exact ⟨h2, fun it b hx => (by rw [h1] at hx; cases hx), h3⟩

theorem notices_append (a b : List (DEv T)) : notices (a ++ b) = notices a ++ notices b := by
  induction a with
  | nil => rfl
  | cons e r ih => cases e <;> simp [notices, ih]

theorem notices_visible (l : List (DEv T)) : notices (visible l) = notices l := by
  induction l with
  | nil => rfl
  | cons e r ih =>
    unfold visible at ih ⊢
    cases e <;> simp [notices, ih]

theorem notices_records (cs : List (Item T × Bool)) : notices (cs.flatMap fullRecord) = (cs.map Prod.fst).flatMap told := by
  induction cs with
  | nil => rfl
  | cons c r ih =>
    rw [List.flatMap_cons, notices_append, ih, List.map_cons, List.flatMap_cons]
    congr 1
    unfold fullRecord told
    cases c.1.hasEvent <;> cases c.1.hasCb <;> rfl

/-- **C131**: everything appended, before or after, was sent and its caller told; or was being sent (at most one, the caller not told); or still waits. -/
theorem C131_split (h h' : List (DOp T)) (s : Drv T) (hr : Drv.init.run (h ++ .kill :: h') = some s) (hc : .clear ∉ h ++ h') :
    ∃ sent cut, appended h ++ appended h' = sent ++ cut ++ s.queue ∧ cut.length ≤ 1 ∧ sent.length = completions h ∧ notices s.log = sent.flatMap told := by
  have hr' := hr
  rw [Drv.run_append] at hr'
  cases h0 : Drv.init.run h with
  | none => rw [h0] at hr'; cases hr'
  | some s0 =>
    obtain ⟨k1, -, k3⟩ := C131_nothing_more h h' s0 s h0 hr
    obtain ⟨cs, n1, n2, -, rest, n3, n4⟩ := C13_notifications h s0 h0
    have ho := C10_order h s0 h0 (fun hx => hc (by simp [hx]))
    refine ⟨cs.map Prod.fst, rest.map Prod.fst, ?_, by simpa using n4, by simpa using n1, ?_⟩
    · rw [k3 (fun hx => hc (by simp [hx])), ← ho, n3]
      simp
    · rw [k1, ← notices_visible]
      rcases n2 with n2 | ⟨it, b, n2⟩
      · rw [n2, notices_records]
      · rw [n2, notices_append, notices_records]; simp [notices]

/-- **C131**: blocking `send()` calls, before or after, do not notice. -/
theorem C131_send (h h' : List (DOp T)) (s : Drv T) (hr : Drv.init.run (h ++ .kill :: h') = some s) :
    s.direct = callsInFlight [] (h ++ h') ∧ ∀ t, s.step (.send t) = some { s with direct := s.direct ++ [t] } := by
  have key : ∀ (h : List (DOp T)) (s0 s : Drv T), s0.run h = some s → s.direct = callsInFlight s0.direct h := by
    intro h
    induction h with
    | nil => intro s0 s hr; simp only [Drv.run, Option.some.injEq] at hr; subst hr; rfl
    | cons o r ih =>
      intro s0 s hr
      unfold Drv.run at hr
      cases hs : s0.step o with
      | none => rw [hs] at hr; cases hr
      | some s1 =>
        rw [hs] at hr
        rw [ih s1 s hr]
        have outer : ∀ q : Drv T, q.outer.direct = q.direct := by
          intro q; unfold Drv.outer; split <;> rfl
        have inner : ∀ q : Drv T, q.inner.direct = q.direct := by
          intro q; unfold Drv.inner; split
          · exact outer q
          · rfl
        cases o with
        | append it => simp only [Drv.step, Option.some.injEq] at hs; subst hs; rfl
        | clear => simp only [Drv.step, Option.some.injEq] at hs; subst hs; rfl
        | kill => simp only [Drv.step, Option.some.injEq] at hs; subst hs; rfl
        | run =>
          simp only [Drv.step] at hs
          split at hs <;> simp only [Option.some.injEq, reduceCtorEq] at hs
          · subst hs; rw [outer]; rfl
          · subst hs; rw [outer]; rfl
        | sendDone =>
          simp only [Drv.step] at hs
          split at hs <;> simp only [Option.some.injEq, reduceCtorEq] at hs
          subst hs; rw [inner]; rfl
        | sendRaise e =>
          simp only [Drv.step] at hs
          split at hs <;> simp only [Option.some.injEq, reduceCtorEq] at hs
          subst hs; rfl
        | callbackRaise e =>
          simp only [Drv.step] at hs
          split at hs <;> try simp only [reduceCtorEq] at hs
          split at hs <;> simp only [Option.some.injEq, reduceCtorEq] at hs
          subst hs; rfl
        | send t => simp only [Drv.step, Option.some.injEq] at hs; subst hs; rfl
        | sendReturn i =>
          simp only [Drv.step] at hs
          split at hs <;> simp only [Option.some.injEq, reduceCtorEq] at hs
          subst hs; rfl
  refine ⟨?_, fun t => rfl⟩
  rw [key _ _ _ hr]
  have skip : ∀ (h : List (DOp T)) (c : List T), callsInFlight c (h ++ .kill :: h') = callsInFlight c (h ++ h') := by
    intro h
    induction h with
    | nil => intro c; rfl
    | cons o r ih => intro c; cases o <;> simp only [List.cons_append, callsInFlight, ih]
  exact skip h []

/-! Three are appended; the first is sent, the driver is killed during the second; a fourth is appended, and two are sent with `send()`. -/
example : ∃ s, Drv.init.run ([.append ⟨1, true, true⟩, .append ⟨2, true, true⟩, .append ⟨3, false, true⟩, .run, .sendDone] ++ .kill ::
      [.append ⟨4, true, false⟩, .send 5, .send 6, .sendReturn 0]) = some s ∧
    s.queue.map Item.txn = [3, 4] ∧ notices s.log = [.event ⟨1, true, true⟩, .callback ⟨1, true, true⟩] ∧ s.direct = [6] ∧
    callsInFlight [] ([.append ⟨1, true, true⟩, .send 5, .send 6, .sendReturn 0] : List (DOp Nat)) = [6] := ⟨_, rfl, by decide⟩

end CocotbBus
