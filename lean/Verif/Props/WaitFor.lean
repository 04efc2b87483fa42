import Verif.Model.WaitP
import Verif.Proof.WaitN

/-! # C93: waiting for a signal -/

namespace CocotbBus
open Coro Spec
variable {I O : Type}

/-- body of the loop in `awaitRise` -/
def riseBody (f : I → Logic) : Unit → M I O (Unit ⊕ Unit) := fun _ => do
  awaitEdge
  nextStep
  let j ← inp
  pure (if f j = .one then .inr () else .inl ())

theorem riseBody_consumes (f : I → Logic) : Consumes (riseBody (O := O) f) := by
  intro b s t b' s' h
  unfold riseBody at h
  cases hr : s.rest with
  | nil => rw [bind_awaitEdge_nil _ s hr] at h; cases h
  | cons i r =>
    rw [bind_awaitEdge_cons _ s i r hr, bind_nextStep, bind_inp_mid _ _ rfl, pure_run] at h
    simp only [Prod.mk.injEq, End.ok.injEq] at h
    obtain ⟨-, -, rfl⟩ := h
    simp

theorem rise_run (f : I → Logic) (pre : List I) : ∀ (ph : Phase) (out : O) (prev cur : I) (post : List I), (∀ i ∈ pre, f i ≠ .one) →
    (∀ i r, post = i :: r → f i = .one →
      ∃ p, awaitRise f (⟨ph, out, prev, cur, pre ++ post⟩ : Sim I O) = ((cur :: pre).map (fun i => (out, i)), .ok () ⟨.mid, out, p, i, r⟩)) ∧
    (post = [] → ∃ s', awaitRise f (⟨ph, out, prev, cur, pre ++ post⟩ : Sim I O) = (((cur :: pre).dropLast).map (fun i => (out, i)), .blocked s') ∧
      s'.out = out) := by
  induction pre with
  | nil =>
    intro ph out prev cur post _
    refine ⟨?_, ?_⟩
    · rintro i r rfl hi
      refine ⟨cur, ?_⟩
      show loop (riseBody f) () _ = _
      rw [loop_unfold _ (riseBody_consumes f)]
      unfold riseBody
      rw [bind_assoc_run, bind_awaitEdge_cons _ _ i r rfl]
      simp only [bind_assoc_run]
      rw [bind_nextStep]
      simp only [bind_assoc_run]
      rw [bind_inp_mid _ _ rfl]
      simp only [hi, if_true, bind_pure_run]
      rfl
    · rintro rfl
      refine ⟨⟨ph, out, prev, cur, []⟩, ?_, rfl⟩
      show loop (riseBody f) () _ = _
      rw [loop_unfold _ (riseBody_consumes f)]
      unfold riseBody
      rw [bind_assoc_run, bind_awaitEdge_nil _ _ rfl]
      rfl
  | cons j l ih =>
    intro ph out prev cur post h
    have hj : f j ≠ .one := h j (by simp)
    have hstep : awaitRise f (⟨ph, out, prev, cur, j :: l ++ post⟩ : Sim I O) =
        ((out, cur) :: (awaitRise f (⟨.mid, out, cur, j, l ++ post⟩ : Sim I O)).1, (awaitRise f (⟨.mid, out, cur, j, l ++ post⟩ : Sim I O)).2) := by
      show loop (riseBody f) () _ = _
      rw [loop_unfold _ (riseBody_consumes f)]
      unfold riseBody
      rw [bind_assoc_run, bind_awaitEdge_cons _ _ j (l ++ post) rfl]
      simp only [bind_assoc_run]
      rw [bind_nextStep]
      simp only [bind_assoc_run]
      rw [bind_inp_mid _ _ rfl]
      simp only [hj, if_false, bind_pure_run]
      rfl
    obtain ⟨h1, h2⟩ := ih .mid out cur j post (fun i hi => h i (by simp [hi]))
    refine ⟨?_, ?_⟩
    · rintro i r rfl hi
      obtain ⟨p, hp⟩ := h1 i r rfl hi
      exact ⟨p, by rw [hstep, hp]; rfl⟩
    · rintro rfl
      obtain ⟨s', hs', ho⟩ := h2 rfl
      exact ⟨s', by rw [hstep, hs']; rfl, ho⟩

/-- body of the loop in `waitP` -/
def waitPBody (f : I → Logic) : Unit → M I O (Unit ⊕ Unit) := fun _ => do
  let i ← inp
  if (← ofExcept (intOf (f i))) = 1 then pure (.inr ())
  else do
    awaitRise f
    readOnly
    pure (.inl ())

theorem waitP_unfold (f : I → Logic) (s : Sim I O) (hs : s.phase ≠ .ro) :
    (waitP f : M I O Unit) s = (iter (waitPBody f) (s.rest.length + 1) () >>= fun _ => nextStep) { s with phase := .ro } := by
  unfold waitP
  rw [bind_readOnly _ _ _ hs]
  rfl

theorem waitPBody_one (f : I → Logic) (s : Sim I O) (hs : s.phase = .ro) (h : f s.cur = .one) :
    waitPBody f () s = ([], .ok (.inr ()) s) := by
  unfold waitPBody
  rw [bind_inp_ro _ _ hs, h]
  rfl

theorem waitPBody_bad (f : I → Logic) (s : Sim I O) (hs : s.phase = .ro) (h0 : f s.cur ≠ .zero) (h1 : f s.cur ≠ .one) :
    waitPBody f () s = ([], .err .valueError s) := by
  unfold waitPBody
  rw [bind_inp_ro _ _ hs]
  cases h : f s.cur with
  | zero => exact absurd h h0
  | one => exact absurd h h1
  | x => rfl
  | z => rfl

theorem waitPBody_zero (f : I → Logic) (s : Sim I O) (hs : s.phase = .ro) (h : f s.cur = .zero) :
    waitPBody f () s = (awaitRise f >>= fun _ => readOnly >>= fun _ => pure (.inl ())) s := by
  unfold waitPBody
  rw [bind_inp_ro _ _ hs, h, intOf, bind_ofExcept_ok]
  simp only [Nat.zero_ne_one, if_false]

/-- C93, `_wait_for_signal`, called outside the ReadOnly phase. If the signal is 1 it returns in the same cycle. If it is 0, it returns in the
first later cycle in which it is 1 (values that are neither 0 nor 1 are waited over), and not at all if there is none. If it is neither,
ValueError. Nothing is driven meanwhile, and signals may be driven when it returns. -/
theorem C93_signal (f : I → Logic) (s : Sim I O) (hs : s.phase ≠ .ro) :
    (f s.cur = .one → (waitP f : M I O Unit) s = ([], .ok () { s with phase := .mid })) ∧
    (f s.cur = .zero → ∀ pre i post, s.rest = pre ++ i :: post → (∀ j ∈ pre, f j ≠ .one) → f i = .one →
      ∃ p, (waitP f : M I O Unit) s = ((s.cur :: pre).map (fun j => (s.out, j)), .ok () ⟨.mid, s.out, p, i, post⟩)) ∧
    (f s.cur = .zero → (∀ j ∈ s.rest, f j ≠ .one) →
      ∃ s', (waitP f : M I O Unit) s = (((s.cur :: s.rest).dropLast).map (fun j => (s.out, j)), .blocked s') ∧ s'.out = s.out) ∧
    (f s.cur ≠ .zero → f s.cur ≠ .one → ∃ s', (waitP f : M I O Unit) s = ([], .err .valueError s') ∧ s'.out = s.out) := by
  rw [waitP_unfold f s hs, bind_run, iter, bind_run]
  refine ⟨?_, ?_, ?_, ?_⟩
  · intro h
    rw [waitPBody_one f { s with phase := .ro } rfl h]
    rfl
  · intro h pre i post hr hpre hi
    obtain ⟨p, hp⟩ := (rise_run f pre .ro s.out s.prev s.cur (i :: post) hpre).1 i post rfl hi
    refine ⟨p, ?_⟩
    have hstate : ({ s with phase := .ro } : Sim I O) = ⟨.ro, s.out, s.prev, s.cur, pre ++ i :: post⟩ := by rw [← hr]
    rw [waitPBody_zero f { s with phase := .ro } rfl h, bind_run, hstate, hp, andThen_ok, bind_readOnly _ _ _ (by simp), pure_run]
    simp only [List.append_nil, andThen_ok]
    obtain ⟨m, hm⟩ : ∃ m, s.rest.length = m + 1 := ⟨s.rest.length - 1, by rw [hr]; simp; omega⟩
    rw [hm, iter, bind_run, waitPBody_one f _ rfl hi]
    simp [nextStep, pure_run]
  · intro h hr
    obtain ⟨s', hs', ho⟩ := (rise_run f s.rest .ro s.out s.prev s.cur [] hr).2 rfl
    refine ⟨s', ?_, ho⟩
    rw [List.append_nil] at hs'
    have hstate : ({ s with phase := .ro } : Sim I O) = ⟨.ro, s.out, s.prev, s.cur, s.rest⟩ := rfl
    rw [waitPBody_zero f { s with phase := .ro } rfl h, bind_run, hstate, hs']
    rfl
  · intro h0 h1
    rw [waitPBody_bad f { s with phase := .ro } rfl h0 h1]
    exact ⟨_, rfl, rfl⟩

/-- C93, `_wait_for_nsignal`, called outside the ReadOnly phase: with `ws` the cycles from now on in which the signal is 1 without interruption,
it returns in the cycle after them if the signal is 0 in it, raises ValueError if it is neither 0 nor 1, and does not return if there is no such
cycle. Nothing is driven meanwhile, and signals may be driven when it returns. -/
theorem C93_nsignal (f : I → Logic) (s : Sim I O) (hs : s.phase ≠ .ro) (ws : List I) (hws : ∀ i ∈ ws, f i = .one) :
    (∀ i post, s.cur :: s.rest = ws ++ i :: post → f i = .zero →
      ∃ s', (waitN f : M I O Unit) s = (ws.map (fun j => (s.out, j)), .ok () s') ∧ s'.out = s.out ∧ s'.phase = .mid ∧ s'.cur = i ∧ s'.rest = post) ∧
    (∀ i post, s.cur :: s.rest = ws ++ i :: post → f i ≠ .zero → f i ≠ .one →
      ∃ s', (waitN f : M I O Unit) s = (ws.map (fun j => (s.out, j)), .err .valueError s') ∧ s'.out = s.out ∧ s'.cur = i ∧ s'.rest = post) ∧
    (s.cur :: s.rest = ws →
      ∃ s', (waitN f : M I O Unit) s = (ws.dropLast.map (fun j => (s.out, j)), .blocked s') ∧ s'.out = s.out) := by
  have split : ∀ (us vs : List I) (a b : I) (u v : List I), (∀ i ∈ us, f i = .one) → (∀ i ∈ vs, f i = .one) → f a ≠ .one → f b ≠ .one →
      us ++ a :: u = vs ++ b :: v → us = vs ∧ a = b ∧ u = v := by
    intro us
    induction us with
    | nil =>
      intro vs a b u v _ hv ha _ h
      cases vs with
      | nil => cases h; exact ⟨rfl, rfl, rfl⟩
      | cons c vs => cases h; exact absurd (hv _ (by simp)) ha
    | cons c us ih =>
      intro vs a b u v hu hv ha hb h
      cases vs with
      | nil => cases h; exact absurd (hu _ (by simp)) hb
      | cons d vs =>
        simp only [List.cons_append, List.cons.injEq] at h
        obtain ⟨rfl, h⟩ := h
        obtain ⟨rfl, rfl, rfl⟩ := ih vs a b u v (fun i hi => hu i (by simp [hi])) (fun i hi => hv i (by simp [hi])) ha hb h
        exact ⟨rfl, rfl, rfl⟩
  obtain ⟨us, h1, h2, h3⟩ := waitN_run f s hs
  have eq : ∀ {e}, ((waitN f : M I O Unit) s).2 = e → (waitN f : M I O Unit) s = (us.map (fun j => (s.out, j)), e) := by
    intro e he; rw [← he, ← h1]
  refine ⟨?_, ?_, ?_⟩
  · intro i post h hi
    rcases h3 with ⟨s', a, b, c, d, e⟩ | ⟨s', a, b, c, d, e⟩ | ⟨s', a, b, c, d, e⟩
    · obtain ⟨rfl, rfl, rfl⟩ := split ws us i s'.cur post s'.rest hws h2 (by simp [hi]) (by simp [d]) (h.symm.trans e)
      exact ⟨s', eq a, b, c, rfl, rfl⟩
    · obtain ⟨rfl, rfl, rfl⟩ := split ws us i s'.cur post s'.rest hws h2 (by simp [hi]) d (h.symm.trans e)
      exact absurd hi c
    · have := h.symm.trans e
      have hm : i ∈ us ++ [s'.cur] := by rw [← this]; simp
      rcases List.mem_append.mp hm with hm | hm
      · rw [h2 i hm] at hi; cases hi
      · rw [List.mem_singleton.mp hm, d] at hi; cases hi
  · intro i post h h0 h1'
    rcases h3 with ⟨s', a, b, c, d, e⟩ | ⟨s', a, b, c, d, e⟩ | ⟨s', a, b, c, d, e⟩
    · obtain ⟨rfl, rfl, rfl⟩ := split ws us i s'.cur post s'.rest hws h2 h1' (by simp [d]) (h.symm.trans e)
      exact absurd d h0
    · obtain ⟨rfl, rfl, rfl⟩ := split ws us i s'.cur post s'.rest hws h2 h1' d (h.symm.trans e)
      exact ⟨s', eq a, b, rfl, rfl⟩
    · have := h.symm.trans e
      have hm : i ∈ us ++ [s'.cur] := by rw [← this]; simp
      rcases List.mem_append.mp hm with hm | hm
      · exact absurd (h2 i hm) h1'
      · rw [List.mem_singleton.mp hm] at h1'; exact absurd d h1'
  · intro h
    rcases h3 with ⟨s', a, b, c, d, e⟩ | ⟨s', a, b, c, d, e⟩ | ⟨s', a, b, c, d, e⟩
    · have := hws s'.cur (by rw [← h, e]; simp)
      rw [d] at this; cases this
    · exact absurd (hws s'.cur (by rw [← h, e]; simp)) d
    · have hu : us = ws.dropLast := by rw [← h, e, List.dropLast_concat]
      rw [← hu]
      exact ⟨s', eq a, b⟩

/-! ## The hypotheses can be met -/

/-- 0, then undefined, then 1: the undefined value is waited over. -/
example : (waitP id (⟨.mid, (), .zero, .zero, [.zero, .x, .one, .zero]⟩ : Sim Logic Unit)) =
    ([((), .zero), ((), .zero), ((), .x)], .ok () ⟨.mid, (), .x, .one, [.zero]⟩) := by decide +kernel

/-- 1, then undefined: `_wait_for_nsignal` raises. -/
example : (waitN id (⟨.mid, (), .one, .one, [.one, .x, .zero]⟩ : Sim Logic Unit)) =
    ([((), .one), ((), .one)], .err .valueError ⟨.ro, (), .one, .x, [.zero]⟩) ∧
    (waitN id (⟨.edge, (), .one, .one, [.one, .zero, .zero]⟩ : Sim Logic Unit)) =
    ([((), .one), ((), .one)], .ok () ⟨.mid, (), .one, .zero, [.zero]⟩) := by
  refine ⟨?_, ?_⟩ <;> decide +kernel

end CocotbBus
