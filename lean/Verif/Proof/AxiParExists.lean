import Verif.Proof.AxiExists
import Verif.Props.AxiPar

/-! # Two tasks and a memory that accepts and answers everything at once -/

namespace CocotbBus
open Spec Coro
variable {I O P D : Type}

theorem closed_of (f : Sim I O → List (O × I)) (hsnoc : ∀ s i, ∃ o, f (s.snoc i) = f s ++ [(o, i)]) (hsnd : ∀ s, (f s).map Prod.snd = s.cur :: s.rest)
    (step : D → O × I → D) (pins : D → I) (d : D) (ph : Phase) (o : O) (N : Nat) :
    ∃ s : Sim I O, s.phase = ph ∧ s.out = o ∧ s.rest.length = N ∧ DrivenBy step pins d (f s) := by
  induction N with
  | zero =>
    refine ⟨⟨ph, o, pins d, pins d, []⟩, rfl, rfl, rfl, ?_⟩
    have hm := hsnd ⟨ph, o, pins d, pins d, []⟩
    generalize f ⟨ph, o, pins d, pins d, []⟩ = w at hm
    cases w with
    | nil => cases hm
    | cons q t =>
      simp only [List.map_cons, List.cons.injEq, List.map_eq_nil_iff] at hm
      obtain ⟨h1, rfl⟩ := hm
      exact ⟨h1, trivial⟩
  | succ N ih =>
    obtain ⟨s, h1, h2, h3, h4⟩ := ih
    obtain ⟨o', ho⟩ := hsnoc s (pins ((f s).foldl step d))
    refine ⟨s.snoc (pins ((f s).foldl step d)), h1, h2, by simp [Sim.snoc, h3], ?_⟩
    rw [ho, drivenBy_append]
    exact ⟨h4, rfl, trivial⟩

theorem wholeRun_inputs {α : Type} {x : M I O α} (hg : Good x) (s : Sim I O) : (wholeRun (x s)).map Prod.snd = s.cur :: s.rest := by
  rw [wholeRun, List.map_append, List.map_map, show (Prod.snd ∘ fun i => ((x s).2.sim.out, i)) = (fun i : I => i) from rfl, List.map_id']
  exact (hg s).1.symm

/-- the cells of two tasks side by side -/
def beside (p : AxAll × AxIn) (q : AxAll × AxIn) : AxAll × AxIn := ((p.1.1, q.1.2), p.2)

theorem joinTrace_prefix (lo lp : AxAll) (t : List (AxAll × AxIn)) : ∀ (u : List (AxAll × AxIn)) (R1 R2 : List AxIn), t.map Prod.snd ++ R1 = u.map Prod.snd ++ R2 →
    joinTrace (t.map (fun q => (q.1.1, q.2))) lo.1 (u.map (fun q => (q.1.2, q.2))) lp.2 <+:
      List.zipWith beside (t ++ R1.map (fun i => (lo, i))) (u ++ R2.map (fun i => (lp, i))) := by
  induction t with
  | nil =>
    intro u
    induction u with
    | nil => intro R1 R2 _; exact List.nil_prefix
    | cons q u ih =>
      intro R1 R2 h
      cases R1 with
      | nil => cases h
      | cons i R1 =>
        simp only [List.map_nil, List.nil_append, List.map_cons, List.cons_append, List.cons.injEq] at h
        have := ih R1 R2 h.2
        simp only [List.map_nil, List.nil_append, joinTrace] at this
        simp only [List.map_nil, List.nil_append, List.map_cons, joinTrace, List.cons_append, List.zipWith_cons_cons]
        rw [show beside (lo, i) q = ((lo.1, q.1.2), q.2) by rw [beside, h.1]]
        exact (List.prefix_cons_inj _).2 this
  | cons p t ih =>
    intro u R1 R2 h
    cases u with
    | nil =>
      cases R2 with
      | nil => cases h
      | cons i R2 =>
        simp only [List.map_nil, List.nil_append, List.map_cons, List.cons_append, List.cons.injEq] at h
        have := ih [] R1 R2 (by simpa using h.2)
        simp only [List.map_cons, List.map_nil, joinTrace, List.cons_append, List.nil_append, List.zipWith_cons_cons, List.tail_nil] at this ⊢
        exact (List.prefix_cons_inj _).2 this
    | cons q u =>
      simp only [List.map_cons, List.cons_append, List.cons.injEq] at h
      have := ih u R1 R2 h.2
      simp only [List.map_cons, joinTrace, List.cons_append, List.zipWith_cons_cons, List.tail_cons] at this ⊢
      exact (List.prefix_cons_inj _).2 this

theorem joinTrace_read (lo lp : AxAll) (t : List (AxAll × AxIn)) : ∀ (u : List (AxAll × AxIn)) (R1 R2 : List AxIn), t.map Prod.snd ++ R1 = u.map Prod.snd ++ R2 →
    ∀ q ∈ joinTrace (t.map (fun q => (q.1.1, q.2))) lo.1 (u.map (fun q => (q.1.2, q.2))) lp.2,
      (∃ p ∈ u, p.1.2 = q.1.2 ∧ p.2 = q.2) ∨ (q.1.2 = lp.2 ∧ u.length < t.length) := by
  induction t with
  | nil =>
    intro u R1 R2 _ q hq
    simp only [List.map_nil, joinTrace, List.map_map, List.mem_map] at hq
    obtain ⟨p, hp, rfl⟩ := hq
    exact .inl ⟨p, hp, rfl, rfl⟩
  | cons p t ih =>
    intro u R1 R2 h q hq
    cases u with
    | nil =>
      cases R2 with
      | nil => cases h
      | cons i R2 =>
        simp only [List.map_nil, List.nil_append, List.map_cons, List.cons_append, List.cons.injEq] at h
        simp only [List.map_cons, List.map_nil, joinTrace, List.mem_cons] at hq
        refine .inr ⟨?_, by simp⟩
        rcases hq with rfl | hq
        · rfl
        · rcases ih [] R1 R2 (by simpa using h.2) q hq with ⟨p, hp, -⟩ | h
          · cases hp
          · exact h.1
    | cons r u =>
      simp only [List.map_cons, List.cons_append, List.cons.injEq] at h
      simp only [List.map_cons, joinTrace, List.mem_cons, List.tail_cons] at hq
      rcases hq with rfl | hq
      · exact .inl ⟨r, by simp, rfl, h.1.symm⟩
      · rcases ih u R1 R2 h.2 q hq with ⟨p, hp, h1⟩ | h
        · exact .inl ⟨p, by simp [hp], h1⟩
        · exact .inr ⟨h.1, by simp [h.2]⟩

/-- after a read, or a pause, the read address channel is idle -/
theorem readStep_end (c : AxCfg) (hc : Standard c) (op : AxOp) (hop : AxOpOk c op) (hr : ReadStep op) (s : Sim AxIn AxAll) (hs : s.phase ≠ .ro ∧ s.out.2.valid = .zero)
    (s' : Sim AxIn AxAll) (h : Ended (axStep c op s).2 s') : s'.phase ≠ .ro ∧ s'.out.2.valid = .zero := by
  have lift : ∀ {α : Type} (x : M AxIn AddrOut α) (f : α → List LogicArray), Ended (Res.andThen (onRead x s) (fun a => pure (f a))).2 s' →
      ∃ u, Ended (x ⟨s.phase, s.out.2, s.prev, s.cur, s.rest⟩).2 u ∧ s'.phase = u.phase ∧ s'.out.2 = u.out := by
    intro α x f h
    unfold onRead at h
    simp only at h
    generalize x ⟨s.phase, s.out.2, s.prev, s.cur, s.rest⟩ = r at h ⊢
    obtain ⟨t, e⟩ := r
    cases e with
    | ok a u =>
      rcases h with ⟨b, h⟩ | ⟨n, h⟩
      · cases h; exact ⟨u, .inl ⟨a, rfl⟩, rfl, rfl⟩
      · cases h
    | err e u =>
      rcases h with ⟨b, h⟩ | ⟨n, h⟩
      · cases h
      · cases h; exact ⟨u, .inr ⟨n, rfl⟩, rfl, rfl⟩
    | blocked u => rcases h with ⟨b, h⟩ | ⟨n, h⟩ <;> cases h
  have main : ∀ (a : Nat) (len : Int) (size : Option Int) (burst : AxiBurst) (sync : Bool) (sz : Nat), a < 2 ^ c.addrW → Legal c a len size burst sz →
      ∀ u, Ended (axiRead c a len size burst false sync ⟨s.phase, s.out.2, s.prev, s.cur, s.rest⟩).2 u → u.phase ≠ .ro ∧ u.out.valid = .zero := by
    intro a len size burst sync sz ha hl u hu
    rw [axiRead_legal c hc a len size burst false sync sz hl] at hu
    obtain ⟨h1, h2, -⟩ := Legal.facts hl hc ha
    obtain ⟨g1, g2⟩ := axiReadRun_end c a len.toNat sz burst false sync h1 h2 _ ⟨.inr hs.1, hs.2⟩ u hu
    exact ⟨(by rw [g1]; intro h; cases h), g2⟩
  cases op with
  | write => exact hr.elim
  | liteWrite => exact hr.elim
  | read a len size burst sync =>
    obtain ⟨o1, o2, o3, -⟩ := hop
    obtain ⟨u, h1, h2, h3⟩ := lift _ _ h
    rw [h2, h3]
    exact main a len size burst sync _ o2 o3 u h1
  | liteRead a sync =>
    obtain ⟨u, h1, h2, h3⟩ := lift _ _ h
    rw [h2, h3]
    have e : liteRead c a sync ⟨s.phase, s.out.2, s.prev, s.cur, s.rest⟩ = Res.andThen (axiRead c a 1 none .incr false sync ⟨s.phase, s.out.2, s.prev, s.cur, s.rest⟩) liteFirst := rfl
    rw [e] at h1
    refine main a 1 none .incr sync _ hop.2 (legal_single c hc a) u ?_
    generalize axiRead c a 1 none .incr false sync ⟨s.phase, s.out.2, s.prev, s.cur, s.rest⟩ = r at h1 ⊢
    obtain ⟨t, e⟩ := r
    cases e with
    | ok d v =>
      rw [andThen_ok] at h1
      unfold liteFirst at h1
      split at h1
      · rcases h1 with ⟨b, h⟩ | ⟨n, h⟩
        · cases h; exact .inl ⟨_, rfl⟩
        · cases h
      · rcases h1 with ⟨b, h⟩ | ⟨n, h⟩ <;> cases h
    | err e v =>
      rcases h1 with ⟨b, h⟩ | ⟨n, h⟩
      · cases h
      · cases h; exact .inr ⟨n, rfl⟩
    | blocked v => rcases h1 with ⟨b, h⟩ | ⟨n, h⟩ <;> cases h
  | pause n =>
    obtain ⟨-, -, h3⟩ := edges_const (I := AxIn) n s hs.1
    have e : axStep c (.pause n) s = Res.andThen ((edges n : M AxIn AxAll Unit) s) (fun _ => pure []) := rfl
    rw [e] at h
    generalize (edges n : M AxIn AxAll Unit) s = r at h h3
    obtain ⟨t, e⟩ := r
    rcases h3 with ⟨u, h3, h4, h5⟩ | ⟨u, h3⟩
    · simp only at h3
      rw [h3, andThen_ok] at h
      rcases h with ⟨b, h⟩ | ⟨n, h⟩
      · cases h; exact ⟨h4, by rw [h5]; exact hs.2⟩
      · cases h
    · simp only at h3
      rw [h3] at h
      rcases h with ⟨b, h⟩ | ⟨n, h⟩ <;> cases h

theorem readUse_fits (c : AxCfg) (hc : Standard c) (ops : List AxOp) : ∀ (s : Sim AxIn AxAll), (∀ op ∈ ops, AxOpOk c op ∧ ReadStep op) → s.phase ≠ .ro ∧ s.out.2.valid = .zero →
    (∀ q ∈ (axUse c ops s).2.1, (arStream c).xfer (q.1.2, q.2) = true → FitsBus c ((arStream c).payload q.1.2)) ∧ ∀ s', (axUse c ops s).2.2 = .ok () s' → s'.out.2.valid = .zero := by
  induction ops with
  | nil => intro s _ hs; exact ⟨fun q hq => (by cases hq), fun s' h => (by cases h; exact hs.2)⟩
  | cons op ops ih =>
    intro s hops hs
    have hfit := axStep_fits c hc op (hops op (by simp)).1 s hs
    have hend := readStep_end c hc op (hops op (by simp)).1 (hops op (by simp)).2 s hs
    rw [axUse_eq]
    cases hr : axStep c op s with
    | mk t e =>
      rw [hr] at hfit hend
      have go : ∀ s', Ended e s' → (∀ q ∈ t ++ (axUse c ops s').2.1, (arStream c).xfer (q.1.2, q.2) = true → FitsBus c ((arStream c).payload q.1.2)) ∧
          ∀ s'', (axUse c ops s').2.2 = .ok () s'' → s''.out.2.valid = .zero := by
        intro s' hs'
        obtain ⟨g1, g2⟩ := ih s' (fun o ho => hops o (by simp [ho])) (hend s' hs')
        refine ⟨fun q hq => ?_, g2⟩
        rcases List.mem_append.1 hq with hq | hq
        · exact hfit q hq
        · exact g1 q hq
      cases e with
      | ok d s' => exact go s' (.inl ⟨d, rfl⟩)
      | blocked s' => exact ⟨hfit, fun s'' h => (by cases h)⟩
      | err e s' =>
        cases e with
        | axiProtocol n => exact go s' (.inr ⟨n, rfl⟩)
        | _ => exact ⟨hfit, fun s'' h => (by cases h)⟩

theorem axPar_exists (c : AxCfg) (hc : Standard c) (wops rops : List AxOp) (hw : ∀ op ∈ wops, AxOpOk c op ∧ WriteStep op) (hr : ∀ op ∈ rops, AxOpOk c op ∧ ReadStep op)
    (mem : Nat → Byte) (ph : Phase) (hph : ph ≠ .ro) (o : AxAll) (ho : o.1.1.valid = .zero ∧ o.1.2.valid = .zero ∧ o.2.valid = .zero) (N : Nat) :
    ∃ s : Sim AxIn AxAll, s.phase = ph ∧ s.out = o ∧ s.rest.length = N ∧ (∀ i ∈ s.cur :: s.rest, GoodBeat c.dataBytes i ∧ GoodResp i) ∧
      AxMem.Serves c (AxMem.idle allOkay 0 mem) (axPar c wops rops s).trace ∧ AxMem.Prompt 1 c (AxMem.idle allOkay 0 mem) AxWait.zero (axPar c wops rops s).trace := by
  have hW : 0 < c.dataBytes := by obtain ⟨⟨j, -, hj⟩, -⟩ := hc; rw [hj]; exact Nat.two_pow_pos j
  have hgw := fun s => wholeRun_inputs (axUse_good c wops) s
  have hgr := fun s => wholeRun_inputs (axUse_good c rops) s
  have hlen : ∀ s, (wholeRun (axUse c wops s).2).length = (wholeRun (axUse c rops s).2).length := fun s => by
    have h1 := congrArg List.length (hgw s)
    have h2 := congrArg List.length (hgr s)
    rw [List.length_map] at h1 h2
    omega
  have hinp : ∀ s, (List.zipWith beside (wholeRun (axUse c wops s).2) (wholeRun (axUse c rops s).2)).map Prod.snd = s.cur :: s.rest := by
    intro s
    rw [← hgw s]
    have hl := hlen s
    generalize wholeRun (axUse c wops s).2 = a at hl ⊢
    generalize wholeRun (axUse c rops s).2 = b at hl ⊢
    induction a generalizing b with
    | nil => rfl
    | cons p a ih =>
      cases b with
      | nil => simp at hl
      | cons q b => simp only [List.zipWith_cons_cons, List.map_cons, ih b (by simpa using hl)]; rfl
  obtain ⟨s, h1, h2, h3, h4⟩ := closed_of (fun s => List.zipWith beside (wholeRun (axUse c wops s).2) (wholeRun (axUse c rops s).2))
    (fun s i => by
      obtain ⟨a, ha⟩ := CausalW.wholeRun (CausalW.axUse c wops) (axUse_good c wops) s i
      obtain ⟨b, hb⟩ := CausalW.wholeRun (CausalW.axUse c rops) (axUse_good c rops) s i
      refine ⟨(a.1, b.2), ?_⟩
      rw [ha, hb, List.zipWith_append (hlen s)]
      rfl) hinp (AxMem.step c) (instantPins c) (AxMem.idle allOkay 0 mem) ph o N
  have hgood : ∀ i ∈ s.cur :: s.rest, GoodBeat c.dataBytes i ∧ GoodResp i := by
    intro i hi
    rw [← hinp s] at hi
    obtain ⟨q, hq, rfl⟩ := List.mem_map.1 hi
    exact instant_good c hW _ _ h4 q hq
  have hcons : (axUse c wops s).2.1.map Prod.snd ++ (axUse c wops s).2.2.sim.cur :: (axUse c wops s).2.2.sim.rest =
      (axUse c rops s).2.1.map Prod.snd ++ (axUse c rops s).2.2.sim.cur :: (axUse c rops s).2.2.sim.rest :=
    (axUse_good c wops s).1.symm.trans (axUse_good c rops s).1
  have hpre := joinTrace_prefix (axUse c wops s).2.2.sim.out (axUse c rops s).2.2.sim.out (axUse c wops s).2.1 (axUse c rops s).2.1 _ _ hcons
  obtain ⟨v, hv⟩ := hpre
  have h5 : DrivenBy (AxMem.step c) (instantPins c) (AxMem.idle allOkay 0 mem) (axPar c wops rops s).trace := by
    have : (axPar c wops rops s).trace ++ v = List.zipWith beside (wholeRun (axUse c wops s).2) (wholeRun (axUse c rops s).2) := hv
    rw [← this, drivenBy_append] at h4
    exact h4.1
  have hserve := instant_serves c hW _ _ h5
  refine ⟨s, h1, h2, h3, hgood, hserve, ?_⟩
  refine instant_prompt c _ _ _ ⟨rfl, rfl, rfl, rfl, .inl rfl, fun _ _ => (by decide : 0 < 4), fun r h => (by cases h), fun p n h => (by cases h)⟩ h5 ?_
  have hs : s.phase ≠ .ro ∧ s.out.1.1.valid = .zero ∧ s.out.1.2.valid = .zero ∧ s.out.2.valid = .zero := ⟨by rw [h1]; exact hph, by rw [h2]; exact ho⟩
  obtain ⟨f1, f2⟩ := readUse_fits c hc rops s hr ⟨hs.1, hs.2.2.2⟩
  have herr := (C103_parallel_partial c hc wops rops hw hr mem s hs hgood hserve).2.1
  intro q hq hx
  rcases joinTrace_read (axUse c wops s).2.2.sim.out (axUse c rops s).2.2.sim.out (axUse c wops s).2.1 (axUse c rops s).2.1 _ _ hcons q hq with ⟨p, hp, e1, e2⟩ | ⟨e1, e2⟩
  · rw [← e1, ← e2] at hx
    rw [← e1]
    exact f1 p hp hx
  · exfalso
    cases he : (axUse c rops s).2.2 with
    | ok a s' =>
      have := f2 s' he
      rw [he] at e1
      have e1 : q.1.2 = s'.out.2 := e1
      simp [Stream.xfer, arStream, e1, this] at hx
    | err e s' => exact (herr e s').2 he
    | blocked s' =>
      have hrest := (axUse_good c rops s).2 s' he
      have := congrArg List.length hcons
      rw [he] at this
      simp only [List.length_append, List.length_map, List.length_cons, End.sim, hrest, List.length_nil] at this
      omega

end CocotbBus
