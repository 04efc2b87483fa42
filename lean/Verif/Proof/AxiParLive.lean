import Verif.Proof.AxiParRead

/-! # Two tasks and a memory that answers in time -/

namespace CocotbBus
open Spec Coro

/-! ### The reading task -/

/-- a memory that is only read -/
theorem readOnly_step (c : AxCfg) (E : Nat → Nat → Nat) (mem : Nat → Byte) (ar : Option (AddrReq × Nat)) (k : Nat) (q : AxAll × AxIn)
    (hq : q.1.1.1.valid = .zero ∧ q.1.1.2.valid = .zero) :
    ∃ k', AxMem.step c ⟨mem, none, [], ar, none, k, E⟩ q = ⟨mem, none, [], arNext c ar (q.1.2, q.2), none, k', E⟩ := by
  have x1 : (awStream c).xfer (q.1.1.1, q.2) = false := by simp [Stream.xfer, awStream, hq.1]
  have x2 : (wStream c).xfer (q.1.1.2, q.2) = false := by simp [Stream.xfer, wStream, hq.2]
  have h := (axStep_readPart c ⟨mem, none, [], ar, none, k, E⟩ q).1
  refine ⟨(AxMem.step c ⟨mem, none, [], ar, none, k, E⟩ q).k, ?_⟩
  rw [← show (AxMem.step c ⟨mem, none, [], ar, none, k, E⟩ q).ar = arNext c ar (q.1.2, q.2) from h]
  simp [AxMem.step, AxMem.commit, x1, x2]

theorem readOnly_run (c : AxCfg) (E : Nat → Nat → Nat) (mem : Nat → Byte) (V : Nat → Nat → Byte) (t : List (AxAll × AxIn)) : ∀ (n0 : Nat) (ar : Option (AddrReq × Nat)) (k : Nat),
    (∀ q ∈ t, q.1.1.1.valid = .zero ∧ q.1.1.2.valid = .zero) →
    (ServesR c V n0 ar (arOf t) → LastRight c ⟨mem, none, [], ar, none, k, E⟩ t) ∧
    ∃ k', AxMem.run c ⟨mem, none, [], ar, none, k, E⟩ t = ⟨mem, none, [], arRun c ar (arOf t), none, k', E⟩ := by
  induction t with
  | nil => intro n0 ar k _; exact ⟨fun _ => trivial, k, rfl⟩
  | cons q t ih =>
    intro n0 ar k h
    obtain ⟨k', hk⟩ := readOnly_step c E mem ar k q (h q (by simp))
    obtain ⟨i1, i2⟩ := ih (n0 + 1) (arNext c ar (q.1.2, q.2)) k' (fun q hq => h q (by simp [hq]))
    refine ⟨fun hs => ⟨fun hf p n hp => (hs.1 hf p n hp).2, ?_⟩, ?_⟩
    · rw [hk]
      exact i1 hs.2
    · show ∃ k', AxMem.run c (AxMem.step c ⟨mem, none, [], ar, none, k, E⟩ q) t = _
      rw [hk]
      exact i2

/-- the reading task waits for nothing else than both do -/
theorem readOnly_prompt (c : AxCfg) (N : Nat) (E : Nat → Nat → Nat) (mem : Nat → Byte) (y : AddrOut × WOut) (hy : y.1.valid = .zero ∧ y.2.valid = .zero) (T : List (AxAll × AxIn)) :
    ∀ (m : AxMem) (x : AxWait) (k : Nat), AxMem.Prompt N c m x T →
    AxMem.Prompt N c ⟨mem, none, [], m.ar, none, k, E⟩ ⟨0, 0, x.ar, x.r, none⟩ (T.map (fun q => ((y, q.1.2), q.2))) := by
  have hb : ∀ x : AxWait, x.Below N → AxWait.Below N ⟨0, 0, x.ar, x.r, none⟩ := by
    rintro x ⟨h1, h2, h3, h4, h5⟩
    exact ⟨by simp only; omega, by simp only; omega, h3, h4, fun k hk => by cases hk⟩
  induction T with
  | nil => intro m x k h; exact hb x h
  | cons q T ih =>
    intro m x k h
    refine ⟨hb x h.1, ?_⟩
    obtain ⟨k', hk⟩ := readOnly_step c E mem m.ar k ((y, q.1.2), q.2) hy
    have har := (axStep_readPart c m q).1
    have hx : AxWait.step c ⟨mem, none, [], m.ar, none, k, E⟩ ⟨0, 0, x.ar, x.r, none⟩ ((y, q.1.2), q.2) = ⟨0, 0, (x.step c m q).ar, (x.step c m q).r, none⟩ := by
      have x1 : (awStream c).valid y.1 = false := by simp [awStream, hy.1]
      have x2 : (wStream c).valid y.2 = false := by simp [wStream, hy.2]
      simp [AxWait.step, hk, har, x1, x2, Stream.xfer]
    rw [hk, hx, ← har]
    exact ih _ _ k' h.2

theorem axReader_live (c : AxCfg) (hc : Standard c) (V : Nat → Nat → Byte) (N : Nat) (E : Nat → Nat → Nat) (mem : Nat → Byte) (ops : List AxOp) : ∀ (s : Sim AxIn AxAll) (n0 kr : Nat),
    (∀ op ∈ ops, AxOpOk c op) → (∀ op ∈ ops, ReadStep op) → AxReady s → (∀ i ∈ s.cur :: s.rest, GoodBeat c.dataBytes i ∧ GoodResp i) →
    ServesR c V n0 none (arOf (axUse c ops s).2.1) → AxMem.Prompt N c (AxMem.idle E kr mem) AxWait.zero (axUse c ops s).2.1 → (ops.map (axCost N)).sum ≤ s.rest.length →
    ∃ s', (axUse c ops s).2.2 = .ok () s' ∧ (axUse c ops s).2.1.length ≤ (ops.map (axCost N)).sum := by
  induction ops with
  | nil => intro s n0 kr _ _ _ _ _ _ _; exact ⟨s, rfl, Nat.le_refl 0⟩
  | cons op ops ih =>
    intro s n0 kr hops hrs hs hg hserve hp hlen
    have hk := readStep_keeps c op (hrs op (by simp)) s.out.1 s rfl
    obtain ⟨g1, g2⟩ := axStep_good c op s
    have g1' := congrArg List.length g1
    simp only [List.length_cons, List.length_append, List.length_map] at g1'
    have hv : ∀ q ∈ (axStep c op s).1, q.1.1.1.valid = .zero ∧ q.1.1.2.valid = .zero := by
      intro q hq
      rw [hk.1 q hq]
      exact ⟨hs.2.1, hs.2.2.1⟩
    obtain ⟨o1, k', o2⟩ := readOnly_run c E mem V (axStep c op s).1 n0 none kr hv
    rw [List.map_cons, List.sum_cons] at hlen ⊢
    have hs0 : ServesR c V n0 none (arOf (axStep c op s).1) ∧ AxMem.Prompt N c (AxMem.idle E kr mem) AxWait.zero (axStep c op s).1 := by
      rw [axUse_eq] at hserve hp
      generalize axStep c op s = X at *
      obtain ⟨t, e⟩ := X
      have happ : ∀ t', ServesR c V n0 none (arOf (t ++ t')) → ServesR c V n0 none (arOf t) := by
        intro t' h
        unfold arOf at h
        rw [List.map_append, servesR_append] at h
        exact h.1
      cases e with
      | ok d s' => exact ⟨happ _ hserve, (prompt_append N c _ _ _ _ hp).1⟩
      | blocked s' => exact ⟨hserve, hp⟩
      | err e s' =>
        by_cases h : ∃ n, e = .axiProtocol n
        · obtain ⟨n, rfl⟩ := h
          exact ⟨happ _ hserve, (prompt_append N c _ _ _ _ hp).1⟩
        · cases e <;> first | exact ⟨hserve, hp⟩ | exact absurd ⟨_, rfl⟩ h
    have hl := axStep_live c hc op (hops op (by simp)) s hs hg E kr mem N (o1 hs0.1) hs0.2
    rcases axStep_seen c hc op (hops op (by simp)) (hrs op (by simp)) s hs hg V n0 hs0.1 with ⟨s', h⟩ | ⟨s', words, h1, h2, h3, _⟩
    · have hlt := hl.1 s' h
      have h0' : s'.rest = [] := g2 s' h
      rw [h] at g1'
      change s.rest.length + 1 = (axStep c op s).1.length + (s'.rest.length + 1) at g1'
      rw [h0', List.length_nil] at g1'
      omega
    · have e := axUse_cons c op ops s (axStep c op s).1 (.ok words) s' (by rw [show endWith (.ok words) s' = .ok words s' from rfl, ← h1]) (fun e he => by cases he)
      rw [e] at hserve hp ⊢
      simp only at hserve hp ⊢
      obtain ⟨l1, l2⟩ := hl.2 s' (.inl ⟨words, h1⟩)
      have hp' := prompt_append N c _ _ _ _ hp
      rw [l2, show AxMem.run c (AxMem.idle E kr mem) (axStep c op s).1 = _ from o2, h3] at hp'
      unfold arOf at hserve h3
      rw [List.map_append, servesR_append, h3] at hserve
      rw [h1] at g1 g1'
      change s.rest.length + 1 = (axStep c op s).1.length + (s'.rest.length + 1) at g1'
      obtain ⟨s2, j1, j2⟩ := ih s' _ k' (fun o ho => hops o (by simp [ho])) (fun o ho => hrs o (by simp [ho])) h2
        (fun i hi => hg i (by rw [g1]; exact List.mem_append_right _ hi)) hserve.2 hp'.2 (by omega)
      refine ⟨s2, j1, ?_⟩
      rw [List.length_append]
      omega

/-! ### The writing task -/

theorem WView.prompt {c : AxCfg} (N : Nat) (y : AddrOut) (hy : y.valid = .zero) (T : List (AxAll × AxIn)) : ∀ {m m' : AxMem} (x : AxWait), WView m m' → AxMem.Prompt N c m x T →
    AxMem.Prompt N c m' ⟨x.aw, x.w, 0, 0, x.b⟩ (T.map (fun q => ((q.1.1, y), q.2))) := by
  have hb : ∀ x : AxWait, x.Below N → AxWait.Below N ⟨x.aw, x.w, 0, 0, x.b⟩ := by
    rintro x ⟨h1, h2, h3, h4, h5⟩
    exact ⟨h1, h2, by simp only; omega, by simp only; omega, h5⟩
  induction T with
  | nil => intro m m' x _ h; exact hb x h
  | cons q T ih =>
    intro m m' x hv h
    refine ⟨hb x h.1, ?_⟩
    have hv' := hv.step (c := c) q y hy
    have hx : AxWait.step c m' ⟨x.aw, x.w, 0, 0, x.b⟩ ((q.1.1, y), q.2) = ⟨(x.step c m q).aw, (x.step c m q).w, 0, 0, (x.step c m q).b⟩ := by
      obtain ⟨_, v2, v3, _, v5, _⟩ := hv'
      have x1 : (arStream c).valid y = false := by simp [arStream, hy]
      simp [AxWait.step, v2, v3, v5, x1]
    show AxMem.Prompt N c (m'.step c ((q.1.1, y), q.2)) (AxWait.step c m' ⟨x.aw, x.w, 0, 0, x.b⟩ ((q.1.1, y), q.2)) _
    rw [hx]
    exact ih _ hv' h.2

/-- the records of the reading task in those of both, with all channels -/
theorem axPar_right' (c : AxCfg) (wops rops : List AxOp) (s : Sim AxIn AxAll) (hr : ∀ op ∈ rops, ReadStep op) :
    ∃ u, (axPar c wops rops s).trace.map (fun q => ((s.out.1, q.1.2), q.2)) = (axUse c rops s).2.1 ++ u := by
  obtain ⟨u, hu⟩ := axPar_right c wops rops s
  have hk := axUse_keeps c (fun o => o.1 = s.out.1) rops (fun op h => readStep_keeps c op (hr op h) _) s rfl
  have := congrArg (List.map (fun q : AddrOut × AxIn => (((s.out.1, q.1), q.2) : AxAll × AxIn))) hu
  rw [List.map_map, List.map_append] at this
  refine ⟨u.map (fun q => ((s.out.1, q.1), q.2)), ?_⟩
  rw [show (fun q : AxAll × AxIn => (((s.out.1, q.1.2), q.2) : AxAll × AxIn)) = ((fun q : AddrOut × AxIn => (((s.out.1, q.1), q.2) : AxAll × AxIn)) ∘ fun q => (q.1.2, q.2)) from rfl, this]
  congr 1
  unfold arOf
  rw [List.map_map]
  conv => rhs; rw [← List.map_id (axUse c rops s).2.1]
  apply List.map_congr_left
  intro q hq
  have := hk.1 q hq
  obtain ⟨⟨o1, o2⟩, i⟩ := q
  simp only at this
  subst this
  rfl

end CocotbBus
