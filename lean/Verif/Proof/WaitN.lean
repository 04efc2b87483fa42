import Verif.Proof.StreamProg

/-! # `_wait_for_nsignal` -/

namespace CocotbBus
open Coro Spec
variable {I O P α β : Type}

/-- body of the loop in `awaitChange` -/
def changeBody (f : I → Logic) (v : Logic) : Unit → M I O (Unit ⊕ Unit) := fun _ => do
  awaitEdge
  nextStep
  let j ← inp
  pure (if f j = v then .inl () else .inr ())

theorem changeBody_consumes (f : I → Logic) (v : Logic) : Consumes (changeBody (O := O) f v) := by
  intro b s t b' s' h
  unfold changeBody at h
  cases hr : s.rest with
  | nil => rw [bind_awaitEdge_nil _ s hr] at h; cases h
  | cons i r =>
    rw [bind_awaitEdge_cons _ s i r hr, bind_nextStep, bind_inp_mid _ _ rfl, pure_run] at h
    simp only [Prod.mk.injEq, End.ok.injEq] at h
    obtain ⟨-, -, rfl⟩ := h
    simp

theorem changeLoop_run (f : I → Logic) (v : Logic) (rest : List I) : ∀ (ph : Phase) (out : O) (prev cur : I), f cur = v →
    ∃ ws : List I, (loop (changeBody f v) () (⟨ph, out, prev, cur, rest⟩ : Sim I O)).1 = ws.map (fun i => (out, i)) ∧ (∀ i ∈ ws, f i = v) ∧
      ((∃ s', (loop (changeBody f v) () (⟨ph, out, prev, cur, rest⟩ : Sim I O)).2 = .ok () s' ∧ s'.out = out ∧ s'.phase = .mid ∧
          f s'.cur ≠ v ∧ cur :: rest = ws ++ s'.cur :: s'.rest) ∨
       (∃ s', (loop (changeBody f v) () (⟨ph, out, prev, cur, rest⟩ : Sim I O)).2 = .blocked s' ∧ s'.out = out ∧ s'.rest = [] ∧
          f s'.cur = v ∧ cur :: rest = ws ++ [s'.cur])) := by
  induction rest with
  | nil =>
    intro ph out prev cur hc
    refine ⟨[], ?_⟩
    rw [loop_unfold _ (changeBody_consumes f v)]
    unfold changeBody
    rw [bind_assoc_run, bind_awaitEdge_nil _ _ rfl]
    exact ⟨rfl, by simp, .inr ⟨_, rfl, rfl, rfl, hc, rfl⟩⟩
  | cons j r ih =>
    intro ph out prev cur hc
    rw [loop_unfold _ (changeBody_consumes f v)]
    unfold changeBody
    rw [bind_assoc_run, bind_awaitEdge_cons _ _ j r rfl]
    simp only [bind_assoc_run]
    rw [bind_nextStep]
    simp only [bind_assoc_run]
    rw [bind_inp_mid _ _ rfl]
    by_cases hj : f j = v
    · simp only [hj, if_true, bind_pure_run]
      obtain ⟨ws, h1, h2, h3⟩ := ih .mid out cur j hj
      refine ⟨cur :: ws, ?_, ?_, ?_⟩
      · rw [List.map_cons, ← h1]; rfl
      · intro i hi
        rcases List.mem_cons.1 hi with rfl | hi
        · exact hc
        · exact h2 i hi
      · rcases h3 with ⟨s', a, b, c, d, e⟩ | ⟨s', a, b, c, d, e⟩
        · exact .inl ⟨s', a, b, c, d, by rw [e]; rfl⟩
        · exact .inr ⟨s', a, b, c, d, by rw [e]; rfl⟩
    · simp only [hj, if_false, bind_pure_run]
      refine ⟨[cur], rfl, ?_, .inl ⟨_, rfl, rfl, rfl, hj, rfl⟩⟩
      intro i hi
      rw [List.mem_singleton] at hi
      subst hi; exact hc

/-- body of the loop in `waitN` -/
def waitNBody (f : I → Logic) : Unit → M I O (Unit ⊕ Unit) := fun _ => do
  let i ← inp
  if (← ofExcept (intOf (f i))) = 0 then pure (.inr ())
  else do
    awaitChange f
    readOnly
    pure (.inl ())

theorem waitNBody_zero (f : I → Logic) (s : Sim I O) (hs : s.phase = .ro) (h : f s.cur = .zero) :
    waitNBody f () s = ([], .ok (.inr ()) s) := by
  unfold waitNBody
  rw [bind_inp_ro _ _ hs, h]
  rfl

theorem waitNBody_bad (f : I → Logic) (s : Sim I O) (hs : s.phase = .ro) (h0 : f s.cur ≠ .zero) (h1 : f s.cur ≠ .one) :
    waitNBody f () s = ([], .err .valueError s) := by
  unfold waitNBody
  rw [bind_inp_ro _ _ hs]
  cases h : f s.cur with
  | zero => exact absurd h h0
  | one => exact absurd h h1
  | x => rfl
  | z => rfl

theorem waitNBody_one (f : I → Logic) (s : Sim I O) (hs : s.phase = .ro) (h : f s.cur = .one) :
    waitNBody f () s = (loop (changeBody f .one) () >>= fun _ => readOnly >>= fun _ => pure (.inl ())) s := by
  unfold waitNBody awaitChange
  rw [bind_inp_ro _ _ hs, h, intOf, bind_ofExcept_ok]
  simp only [Nat.one_ne_zero, if_false]
  rw [bind_assoc_run, bind_inp_ro _ _ hs, h]
  rfl

/-- `waitN`: the signal is 1 at the edges passed; then it is 0 (`ok`), neither (ValueError), or time is over -/
theorem waitN_run (f : I → Logic) (s : Sim I O) (hs : s.phase ≠ .ro) :
    ∃ ws : List I, ((waitN f : M I O Unit) s).1 = ws.map (fun i => (s.out, i)) ∧ (∀ i ∈ ws, f i = .one) ∧
      ((∃ s', ((waitN f : M I O Unit) s).2 = .ok () s' ∧ s'.out = s.out ∧ s'.phase = .mid ∧
          f s'.cur = .zero ∧ s.cur :: s.rest = ws ++ s'.cur :: s'.rest) ∨
       (∃ s', ((waitN f : M I O Unit) s).2 = .err .valueError s' ∧ s'.out = s.out ∧
          f s'.cur ≠ .zero ∧ f s'.cur ≠ .one ∧ s.cur :: s.rest = ws ++ s'.cur :: s'.rest) ∨
       (∃ s', ((waitN f : M I O Unit) s).2 = .blocked s' ∧ s'.out = s.out ∧ s'.rest = [] ∧
          f s'.cur = .one ∧ s.cur :: s.rest = ws ++ [s'.cur])) := by
  have hunf : (waitN f : M I O Unit) s = (iter (waitNBody f) (s.rest.length + 1) () >>= fun _ => nextStep) { s with phase := .ro } := by
    unfold waitN
    rw [bind_readOnly _ _ _ hs]
    rfl
  rw [hunf, bind_run, iter, bind_run]
  by_cases h0 : f s.cur = .zero
  · rw [waitNBody_zero f { s with phase := .ro } rfl h0]
    exact ⟨[], rfl, by simp, .inl ⟨_, rfl, rfl, rfl, h0, rfl⟩⟩
  · by_cases h1 : f s.cur = .one
    · rw [waitNBody_one f { s with phase := .ro } rfl h1, bind_run]
      obtain ⟨ws, g1, g2, g3⟩ := changeLoop_run f .one s.rest .ro s.out s.prev s.cur h1
      have hstate : ({ s with phase := .ro } : Sim I O) = ⟨.ro, s.out, s.prev, s.cur, s.rest⟩ := rfl
      rw [hstate]
      rcases g3 with ⟨s', a, b, c, d, e⟩ | ⟨s', a, b, c, d, e⟩
      · have hx : loop (changeBody f .one) () (⟨.ro, s.out, s.prev, s.cur, s.rest⟩ : Sim I O) = (ws.map (fun i => (s.out, i)), .ok () s') := by
          rw [← g1, ← a]
        rw [hx, andThen_ok, bind_readOnly _ _ _ (by rw [c]; decide), pure_run]
        simp only [List.append_nil, andThen_ok]
        obtain ⟨m, hm⟩ : ∃ m, s.rest.length = m + 1 := by
          have hl := congrArg List.length e
          have hws : ws ≠ [] := by
            rintro rfl
            simp only [List.nil_append, List.cons.injEq] at e
            rw [← e.1] at d
            exact d h1
          have := List.length_pos_iff.2 hws
          simp at hl
          exact ⟨s.rest.length - 1, by omega⟩
        rw [hm, iter, bind_run]
        by_cases h2 : f s'.cur = .zero
        · rw [waitNBody_zero f { s' with phase := .ro } rfl h2]
          refine ⟨ws, ?_, g2, .inl ⟨_, rfl, b, rfl, h2, e⟩⟩
          simp [nextStep, pure_run]
        · rw [waitNBody_bad f { s' with phase := .ro } rfl h2 d]
          refine ⟨ws, ?_, g2, .inr (.inl ⟨_, rfl, b, h2, d, e⟩)⟩
          simp
      · have hx : loop (changeBody f .one) () (⟨.ro, s.out, s.prev, s.cur, s.rest⟩ : Sim I O) = (ws.map (fun i => (s.out, i)), .blocked s') := by
          rw [← g1, ← a]
        rw [hx]
        exact ⟨ws, rfl, g2, .inr (.inr ⟨s', rfl, b, c, d, e⟩)⟩
    · rw [waitNBody_bad f { s with phase := .ro } rfl h0 h1]
      exact ⟨[], rfl, by simp, .inr (.inl ⟨_, rfl, rfl, h0, h1, rfl⟩)⟩

/-- waiting for waitrequest (if there is such a signal), then the edge -/
theorem offers_waitN (V : Stream I O P) (hasWait : Bool) (f : I → Logic) (hr : ∀ i, V.ready i = (!hasWait || f i == .zero)) (p : P) (t : Sim I O)
    (ht : t.phase ≠ .ro) (hv : V.valid t.out = true) (hp : V.payload t.out = p) (hres : hasWait = true → ∀ i ∈ t.cur :: t.rest, f i = .zero ∨ f i = .one)
    (post : Unit → Sim I O → Prop) (hpost : ∀ s', s'.out = t.out → s'.phase = .edge → post () s') :
    Offers V p 0 ((when hasWait (waitN f) >>= fun _ => awaitEdge) t) post := by
  have final : ∀ u : Sim I O, u.out = t.out →
      (∃ s', (awaitEdge : M I O Unit) u = ([], .blocked s') ∧ s'.out = t.out) ∨
      (∃ s', (awaitEdge : M I O Unit) u = ([(t.out, u.cur)], .ok () s') ∧ s'.out = t.out ∧ s'.phase = .edge) := by
    intro u hu
    cases hc : u.rest with
    | nil => exact .inl ⟨u, awaitEdge_nil u hc, hu⟩
    | cons i r => exact .inr ⟨{ u with phase := .edge, prev := u.cur, cur := i, rest := r }, by rw [awaitEdge_cons u i r hc, hu], hu, rfl⟩
  cases hasWait with
  | false =>
    refine ⟨[], [], by simp, by simp, .inr ⟨rfl, ?_⟩⟩
    simp only [when, Bool.false_eq_true, if_false, bind_pure_run]
    rcases final t rfl with ⟨s', a, b⟩ | ⟨s', a, b, c⟩
    · exact .inl ⟨s', by rw [a]; rfl, by rw [b]; exact hv, by rw [b]; exact hp⟩
    · exact .inr ⟨_, (), s', by rw [a]; rfl, hv, hp, by simp [hr], hpost s' b c⟩
  | true =>
    simp only [Bool.not_true, Bool.false_or] at hr
    simp only [when, if_true]
    obtain ⟨ws, h1, h2, h3⟩ := waitN_run f t ht
    refine ⟨[], ws.map (fun i => (t.out, i)), by simp, ?_, .inr ⟨rfl, ?_⟩⟩
    · intro q hq
      obtain ⟨i, hi, rfl⟩ := List.mem_map.1 hq
      exact ⟨hv, hp, by rw [hr, h2 i hi]; rfl⟩
    · rw [bind_run]
      rcases h3 with ⟨s', a, b, c, e, f'⟩ | ⟨s', a, b, c, e, f'⟩ | ⟨s', a, b, c, e, f'⟩
      · have hx : waitN f t = (ws.map (fun i => (t.out, i)), .ok () s') := by rw [← a, ← h1]
        rw [hx, andThen_ok]
        rcases final s' b with ⟨s2, a2, b2⟩ | ⟨s2, a2, b2, c2⟩
        · exact .inl ⟨s2, by rw [a2]; simp, by rw [b2]; exact hv, by rw [b2]; exact hp⟩
        · refine .inr ⟨_, (), s2, by rw [a2]; rfl, hv, hp, ?_, hpost s2 b2 c2⟩
          rw [hr]; simpa using e
      · rcases hres rfl s'.cur (by rw [f']; simp) with h | h
        · exact absurd h c
        · exact absurd h e
      · have hx : waitN f t = (ws.map (fun i => (t.out, i)), .blocked s') := by rw [← a, ← h1]
        rw [hx, andThen_blocked]
        exact .inl ⟨s', rfl, by rw [b]; exact hv, by rw [b]; exact hp⟩

end CocotbBus
