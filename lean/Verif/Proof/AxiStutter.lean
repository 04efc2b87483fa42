import Verif.Proof.AxiProps

/-! # Write data with latency between the beats -/

namespace CocotbBus
open Spec Coro

theorem edges_const {I O : Type} (n : Nat) : ∀ s : Sim I O, s.phase ≠ .ro →
    (∀ q ∈ ((edges n : M I O Unit) s).1, q.1 = s.out) ∧ ((edges n : M I O Unit) s).1.length ≤ n ∧
    ((∃ u, ((edges n : M I O Unit) s).2 = .ok () u ∧ u.phase ≠ .ro ∧ u.out = s.out) ∨ (∃ u, ((edges n : M I O Unit) s).2 = .blocked u)) := by
  induction n with
  | zero => intro s hs; exact ⟨(by intro q hq; cases hq), Nat.le_refl _, .inl ⟨s, rfl, hs, rfl⟩⟩
  | succ n ih =>
    intro s hs
    rw [edges]
    cases h : s.rest with
    | nil => rw [bind_awaitEdge_nil _ _ h]; exact ⟨(by intro q hq; cases hq), Nat.zero_le _, .inr ⟨_, rfl⟩⟩
    | cons i r =>
      rw [bind_awaitEdge_cons _ _ i r h]
      obtain ⟨h1, h2, h3⟩ := ih ⟨.edge, s.out, s.cur, i, r⟩ (by simp)
      refine ⟨?_, by simp only [List.length_cons]; omega, h3⟩
      intro q hq
      rcases List.mem_cons.1 hq with rfl | hq
      · rfl
      · exact h1 q hq

theorem taken_const {I O P : Type} (V : Stream I O P) (o : O) (t : List (O × I)) (h : ∀ q ∈ t, q.1 = o) :
    ∃ k ≤ t.length, V.taken t = List.replicate k (V.payload o) ∧ (V.valid o = false → k = 0) := by
  induction t with
  | nil => exact ⟨0, Nat.zero_le _, rfl, fun _ => rfl⟩
  | cons q r ih =>
    obtain ⟨k, h1, h2, h3⟩ := ih (fun x hx => h x (List.mem_cons_of_mem _ hx))
    have hq := h q List.mem_cons_self
    unfold Stream.taken at *
    by_cases hx : V.xfer q = true
    · refine ⟨k + 1, by simp; omega, ?_, ?_⟩
      · rw [List.filter_cons_of_pos hx, List.map_cons, h2, hq, List.replicate_succ]
      · intro hv
        simp [Stream.xfer, hq, hv] at hx
    · exact ⟨k, by simp; omega, by rw [List.filter_cons_of_neg hx, h2], h3⟩

theorem Offers.taken {I O P α : Type} {V : Stream I O P} {p : P} {r : Res I O α} {post : α → Sim I O → Prop} (h : Offers V p 0 r post) :
    (V.taken r.1 = [] ∧ ∃ s', r.2 = .blocked s') ∨ (V.taken r.1 = [p] ∧ (∃ q, r.1.getLast? = some q ∧ V.xfer q = true) ∧ ∃ a s', r.2 = .ok a s' ∧ post a s') := by
  obtain ⟨idle, held, h1, h2, h3⟩ := h
  have hi : ∀ x ∈ idle, V.xfer x = false := fun x hx => by simp [Stream.xfer, h1 x hx]
  have hh : ∀ x ∈ held, V.xfer x = false := fun x hx => by simp [Stream.xfer, (h2 x hx).2.2]
  rcases h3 with ⟨s', rfl, _⟩ | ⟨_, ⟨s', rfl, _⟩ | ⟨q, a, s', rfl, h5, h6, h7, h8⟩⟩
  · exact .inl ⟨taken_none V _ hi, s', rfl⟩
  · exact .inl ⟨by rw [taken_append, taken_none V _ hi, taken_none V _ hh]; rfl, s', rfl⟩
  · have hx : V.xfer q = true := by simp [Stream.xfer, h5, h7]
    refine .inr ⟨?_, ⟨q, by simp, hx⟩, a, s', rfl, h8⟩
    rw [taken_append, taken_append, taken_none V _ hi, taken_none V _ hh]
    simp [Stream.taken, hx, h6]

theorem Stutters.refl {P : Type} (n : Nat) (l : List P) : Stutters n l l := by
  induction l with
  | nil => exact .nil
  | cons p r ih =>
    cases r with
    | nil => exact .last p
    | cons q r' => exact .cons p 0 _ _ (Nat.zero_le _) (by simp) ih

/-- all beats, with any latency; `p` is what is on the bus at the start -/
theorem sendBeats_stutter (c : AxCfg) (dl : Nat) (l : List (Nat × Nat)) (hl : ∀ x ∈ l, x.1 < 2 ^ (8 * c.dataBytes) ∧ x.2 < 2 ^ c.dataBytes) (hne : l ≠ []) :
    ∀ s : Sim AxIn WOut, s.phase ≠ .ro →
    let r := sendBeats c dl l s
    ∃ n ≤ dl, ((wStream c).valid s.out = false → n = 0) ∧ ∃ m, (wStream c).taken r.1 = List.replicate n ((wStream c).payload s.out) ++ m ∧
      ((∃ s', r.2 = .ok () s' ∧ s'.phase ≠ .ro ∧ s'.out.valid = .zero ∧ Stutters dl (wReqs c l) m ∧ ∃ q, r.1.getLast? = some q ∧ (wStream c).xfer q = true) ∨
       (∃ s', r.2 = .blocked s' ∧ ∃ m', Stutters dl (wReqs c l) (m ++ m'))) := by
  induction l with
  | nil => exact absurd rfl hne
  | cons q r ih =>
    intro s hs
    obtain ⟨w, st⟩ := q
    obtain ⟨h1, h2⟩ := hl (w, st) List.mem_cons_self
    have he : (if r.isEmpty = true then Logic.one else .zero) = if r = [] then .one else .zero := by cases r <;> rfl
    obtain ⟨e1, e2, e3⟩ := edges_const dl s hs
    obtain ⟨n, n1, n2, n3⟩ := taken_const (wStream c) s.out _ e1
    rw [sendBeats_cons, beatM_delay, bind_assoc_run, bind_run]
    generalize hE : (edges dl : M AxIn WOut Unit) s = E at *
    have hE2 : E = (E.1, E.2) := rfl
    rcases e3 with ⟨u, u1, u2, u3⟩ | ⟨u, u1⟩
    · rw [hE2, u1, andThen_ok, bind_run]
      have hb := (beatM_offers' c r.isEmpty w st h1 h2 u u2)
      rw [he] at hb
      have hb2 := hb.taken
      generalize hB : beatM c 0 r.isEmpty w st u = B at *
      have hB2 : B = (B.1, B.2) := rfl
      refine ⟨n, by omega, n3, ?_⟩
      rcases hb2 with ⟨b1, s', b2⟩ | ⟨b1, b1', a, s', b2, b3, b4, b5⟩
      · rw [hB2, b2, andThen_blocked]
        refine ⟨[], ?_, .inr ⟨s', rfl, wReqs c ((w, st) :: r), Stutters.refl dl _⟩⟩
        simp only
        rw [taken_append, n2, b1]
      · rw [hB2, b2, andThen_ok]
        simp only
        cases hr : r with
        | nil =>
          subst hr
          refine ⟨(wReqs c [(w, st)]), ?_, .inl ⟨s', rfl, by rw [b3]; decide, b4 rfl, .last _, ?_⟩⟩
          · rw [taken_append, taken_append, n2, b1]
            simp [sendBeats, pure_run, Stream.taken, wReqs]
          · obtain ⟨q, hq, hx⟩ := b1'
            refine ⟨q, ?_, hx⟩
            simp [sendBeats, pure_run, List.getLast?_append, hq]
        | cons q' r' =>
          have hne' : r ≠ [] := by rw [hr]; simp
          rw [← hr]
          obtain ⟨n', f1, f2, m, f3, f4⟩ := ih (fun x hx => hl x (List.mem_cons_of_mem _ hx)) hne' s' (by rw [b3]; decide)
          obtain ⟨b6, b7⟩ := b5 (by rw [hr]; rfl)
          rw [← b7] at b1
          refine ⟨List.replicate (n' + 1) ((wStream c).payload s'.out) ++ m, by rw [taken_append, taken_append, n2, b1, f3, List.replicate_succ]; simp, ?_⟩
          rw [b7]
          rcases f4 with ⟨s2, g1, g2, g3, g4, q2, g5, g6⟩ | ⟨s2, g1, m', g2⟩
          · refine .inl ⟨s2, g1, g2, g3, ?_, q2, ?_, g6⟩
            · exact Stutters.cons _ n' _ m f1 (wReqs_ne c r hne') g4
            · rw [List.getLast?_append, List.getLast?_append, g5]; rfl
          · refine .inr ⟨s2, g1, m', ?_⟩
            rw [List.append_assoc]
            exact Stutters.cons _ n' _ (m ++ m') f1 (wReqs_ne c r hne') g2
    · rw [hE2, u1, andThen_blocked]
      exact ⟨n, by omega, n3, [], by simp [n2], .inr ⟨u, rfl, wReqs c ((w, st) :: r), Stutters.refl dl _⟩⟩

/-- the data task, with any latency -/
theorem sendWriteData_stutter (c : AxCfg) (dl : Nat) (sync : Bool) (l : List (Nat × Nat)) (hl : ∀ x ∈ l, x.1 < 2 ^ (8 * c.dataBytes) ∧ x.2 < 2 ^ c.dataBytes) (hne : l ≠ [])
    (s : Sim AxIn WOut) (hs : sync = true ∨ s.phase ≠ .ro) (h0 : s.out.valid = .zero) :
    let r := (when sync awaitEdge >>= fun _ => sendBeats c dl l) s
    (∃ s', r.2 = .ok () s' ∧ s'.phase ≠ .ro ∧ s'.out.valid = .zero ∧ Stutters dl (wReqs c l) ((wStream c).taken r.1) ∧ ∃ q, r.1.getLast? = some q ∧ (wStream c).xfer q = true) ∨
    (∃ s', r.2 = .blocked s' ∧ ∃ m', Stutters dl (wReqs c l) ((wStream c).taken r.1 ++ m')) := by
  have main : ∀ u : Sim AxIn WOut, u.phase ≠ .ro → u.out = s.out →
      (∃ s', (sendBeats c dl l u).2 = .ok () s' ∧ s'.phase ≠ .ro ∧ s'.out.valid = .zero ∧ Stutters dl (wReqs c l) ((wStream c).taken (sendBeats c dl l u).1) ∧
        ∃ q, (sendBeats c dl l u).1.getLast? = some q ∧ (wStream c).xfer q = true) ∨
      (∃ s', (sendBeats c dl l u).2 = .blocked s' ∧ ∃ m', Stutters dl (wReqs c l) ((wStream c).taken (sendBeats c dl l u).1 ++ m')) := by
    intro u hu1 hu2
    obtain ⟨n, _, n2, m, n3, n4⟩ := sendBeats_stutter c dl l hl hne u hu1
    have hn : n = 0 := n2 (by simp [wStream, hu2, h0])
    subst hn
    simp only [List.replicate_zero, List.nil_append] at n3
    rw [n3]
    exact n4
  cases sync with
  | false =>
    simp only [Coro.when, Bool.false_eq_true, if_false, pure_bind]
    exact main s (by simpa using hs) rfl
  | true =>
    simp only [Coro.when, if_true]
    cases h : s.rest with
    | nil =>
      rw [bind_awaitEdge_nil _ _ h]
      exact .inr ⟨_, rfl, wReqs c l, Stutters.refl dl _⟩
    | cons i r =>
      rw [bind_awaitEdge_cons _ _ i r h]
      have hx : (wStream c).xfer (s.out, s.cur) = false := by simp [Stream.xfer, wStream, h0]
      have ht : ∀ t, (wStream c).taken ((s.out, s.cur) :: t) = (wStream c).taken t := by
        intro t
        simp [Stream.taken, hx]
      simp only [ht]
      rcases main ⟨.edge, s.out, s.cur, i, r⟩ (by simp) rfl with ⟨s', g1, g2, g3, g4, q, g5, g6⟩ | h'
      · exact .inl ⟨s', g1, g2, g3, g4, q, by rw [List.getLast?_cons, g5]; rfl, g6⟩
      · exact .inr h'

/-- everything about a write, with any latency -/
theorem axiWriteRun_any (c : AxCfg) (a : Nat) (data : List Nat) (size : Nat) (burst : AxiBurst) (be : List (Option Nat)) (al dl : Nat) (sync : Bool)
    (hf : AddrFits c a data.length size) (hsz : 0 < size) (beats : List (Nat × Nat)) (hb : axiWriteBeats c.dataBytes size a burst data be = .ok beats)
    (hne : beats ≠ []) (hl : ∀ x ∈ beats, x.1 < 2 ^ (8 * c.dataBytes) ∧ x.2 < 2 ^ c.dataBytes)
    (s : Sim AxIn (AddrOut × WOut)) (hs : sync = true ∨ s.phase ≠ .ro) (h0 : s.out.1.valid = .zero) (h0' : s.out.2.valid = .zero)
    (hresp : ∀ i ∈ s.cur :: s.rest, bFire i = true → ∃ n, respIs i.bresp n) :
    let r := axiWriteRun c a data size burst be al dl sync s
    ∃ t1 t2, r.1 = t1 ++ t2 ∧
      ((t2 = [] ∧ result r = none ∧ ∃ m', Stutters dl (wReqs c beats) ((wStream c).taken (wTrace t1) ++ m')) ∨
       ((awStream c).taken (awTrace t1) = [addrReq c a data.length size burst] ∧ Stutters dl (wReqs c beats) ((wStream c).taken (wTrace t1)) ∧
        (∃ q, t1.getLast? = some q ∧ ((awStream c).xfer (q.1.1, q.2) = true ∨ (wStream c).xfer (q.1.2, q.2) = true)) ∧
        (∀ q ∈ t2, (awStream c).valid q.1.1 = false ∧ (wStream c).valid q.1.2 = false) ∧ WriteResponse t2 (result r))) := by
  intro r
  have hA := sendWriteAddress_offers c a data.length size al burst sync hf hsz ⟨s.phase, s.out.1, s.prev, s.cur, s.rest⟩ hs h0
  have hW := sendWriteData_stutter c dl sync beats hl hne ⟨s.phase, s.out.2, s.prev, s.cur, s.rest⟩ hs h0'
  have gA := sendWriteAddress_good c a data.length size al burst sync
  have gW := sendWriteData_good c a data burst size dl be sync
  rw [← sendWriteData_eq c a data burst size dl be sync beats hb] at hW
  obtain ⟨u, hu1, hu2, hu3⟩ := combine_left gA gW s
  obtain ⟨v, hv1, hv2, hv3⟩ := combine_right gA gW s
  have hlen := combine_length (x := sendWriteAddress c a data.length burst size al sync) (y := sendWriteData c a data burst size dl be sync) s
  have hgc := combine_good gA gW s
  obtain ⟨qa, qb, qe⟩ := hA.request
  have hrr : r = Res.andThen (combine (sendWriteAddress c a data.length burst size al sync) (sendWriteData c a data burst size dl be sync) s) (fun _ => bPhase) := by
    show axiWriteRun c a data size burst be al dl sync s = _
    rw [axiWriteRun_eq, bind_run]
  generalize hx : sendWriteAddress c a data.length burst size al sync = X at *
  generalize hy : sendWriteData c a data burst size dl be sync = Y at *
  have we : ∀ e s', (Y ⟨s.phase, s.out.2, s.prev, s.cur, s.rest⟩).2 ≠ .err e s' := by
    intro e s' h
    rcases hW with ⟨s2, h2, _⟩ | ⟨s2, h2, _⟩ <;> rw [h] at h2 <;> cases h2
  -- the data taken while both tasks run
  have htw : (wStream c).taken (wTrace (combine X Y s).1) = (wStream c).taken (Y ⟨s.phase, s.out.2, s.prev, s.cur, s.rest⟩).1 := by
    have : wTrace (combine X Y s).1 = _ := hv1
    rw [this, taken_append, taken_none _ v, List.append_nil]
    intro q hq
    rcases hW with ⟨s2, h2, _, h4, _⟩ | ⟨s2, h2, _⟩
    · rw [Stream.xfer, hv2 q hq, h2]
      simp [End.sim, wStream, h4]
    · rw [hv3 s2 h2] at hq; cases hq
  refine ⟨(combine X Y s).1, ?_⟩
  cases hb2 : ((X ⟨s.phase, s.out.1, s.prev, s.cur, s.rest⟩).2.isOk && (Y ⟨s.phase, s.out.2, s.prev, s.cur, s.rest⟩).2.isOk) with
  | false =>
    obtain ⟨s', hs'⟩ := combine_blocked (x := X) (y := Y) s qe we hb2
    have hxy : combine X Y s = ((combine X Y s).1, .blocked s') := by rw [← hs']
    have hr : r = ((combine X Y s).1, .blocked s') := by rw [hrr, hxy, andThen_blocked]
    refine ⟨[], by rw [hr]; simp, .inl ⟨rfl, by rw [hr]; rfl, ?_⟩⟩
    rw [htw]
    rcases hW with ⟨s2, _, _, _, h5, _⟩ | ⟨s2, _, h3⟩
    · exact ⟨[], by rw [List.append_nil]; exact h5⟩
    · exact h3
  | true =>
    cases heX : (X ⟨s.phase, s.out.1, s.prev, s.cur, s.rest⟩).2 with
    | err e s' => exact absurd heX (qe e s')
    | blocked s' => rw [heX] at hb2; simp [End.isOk] at hb2
    | ok x1 s1 =>
    rcases hW with ⟨s2, heY, w2, w3, w4, qW, hqW, hxW⟩ | ⟨s2, heY, _⟩
    · have hok := combine_ok s s1 s2 heX heY
      have hxy : combine X Y s = ((combine X Y s).1, .ok () (joinSim s1 s2)) := by rw [← hok]
      have hr : r = ((combine X Y s).1 ++ (bPhase (joinSim s1 s2)).1, (bPhase (joinSim s1 s2)).2) := by rw [hrr, hxy, andThen_ok]
      have p1 := qb _ _ heX
      have hph : (joinSim s1 s2).phase ≠ .ro := by
        unfold joinSim
        split
        · rw [show (_ : Sim AxIn (AddrOut × WOut)).phase = s1.phase from rfl, p1.1]; decide
        · exact w2
      have hout : (joinSim s1 s2).out = (s1.out, s2.out) := by unfold joinSim; split <;> rfl
      obtain ⟨b1, b2, b3⟩ := bPhase_run (joinSim s1 s2) hph
      have hinp : ∀ i ∈ (joinSim s1 s2).cur :: (joinSim s1 s2).rest, i ∈ s.cur :: s.rest := by
        intro i hi
        have := hgc.1
        rw [hok] at this
        rw [this]
        exact List.mem_append_right _ hi
      have hta : (awStream c).taken (awTrace (combine X Y s).1) = [addrReq c a data.length size burst] := by
        have : awTrace (combine X Y s).1 = _ := hu1
        rw [heX] at qa
        obtain ⟨pre, q, e1, e2, e3, e4⟩ := Stream.Request.xfers qa
        rw [this, taken_append, taken_none _ u, List.append_nil, e1, taken_append, taken_none _ pre e2]
        · simp [Stream.taken, e3, e4]
        · intro q hq
          rw [Stream.xfer, hu2 q hq, heX]
          simp [End.sim, awStream, p1.2]
      refine ⟨(bPhase (joinSim s1 s2)).1, by rw [hr], .inr ⟨hta, by rw [htw]; exact w4, ?_,
        fun q hq => ⟨by simp [b1 q hq, hout, awStream, p1.2], by simp [b1 q hq, hout, wStream, w3]⟩, ?_⟩⟩
      · rw [heX] at qa
        obtain ⟨pre, qA, e1, e2, hxA, e4⟩ := Stream.Request.xfers qa
        have hqA : (X ⟨s.phase, s.out.1, s.prev, s.cur, s.rest⟩).1.getLast? = some qA := by rw [e1]; simp
        have hne0 : (combine X Y s).1 ≠ [] := by
          intro h0
          rw [h0] at hu1
          have : (X ⟨s.phase, s.out.1, s.prev, s.cur, s.rest⟩).1 = [] := (List.append_eq_nil_iff.1 hu1.symm).1
          rw [this] at hqA; cases hqA
        refine ⟨_, List.getLast?_eq_some_getLast hne0, ?_⟩
        by_cases hle : (Y ⟨s.phase, s.out.2, s.prev, s.cur, s.rest⟩).1.length ≤ (X ⟨s.phase, s.out.1, s.prev, s.cur, s.rest⟩).1.length
        · left
          have hu0 : u = [] := by
            have := congrArg List.length hu1
            simp at this
            exact List.length_eq_zero_iff.1 (by omega)
          have := congrArg List.getLast? hu1
          rw [hu0, List.append_nil, List.getLast?_map, List.getLast?_eq_some_getLast hne0, hqA] at this
          simp only [Option.map_some, Option.some.injEq] at this
          rw [this]; exact hxA
        · right
          have hv0 : v = [] := by
            have := congrArg List.length hv1
            simp at this
            exact List.length_eq_zero_iff.1 (by omega)
          have := congrArg List.getLast? hv1
          rw [hv0, List.append_nil, List.getLast?_map, List.getLast?_eq_some_getLast hne0, hqW] at this
          simp only [Option.map_some, Option.some.injEq] at this
          rw [this]; exact hxW
      · have hres : result r = result (bPhase (joinSim s1 s2)) := by rw [hr]; rfl
        rw [hres]
        rcases b3 with ⟨t', q, h1, h2, h3, n, h4, h5⟩ | ⟨i, e, h1, h2, _, _, h3⟩ | ⟨h1, h2⟩
        · exact .inr ⟨t', q, n, h1, h2, h3, (axiResp_ok _ _).1 h4, h5⟩
        · exfalso
          obtain ⟨n, hn⟩ := hresp i (hinp i (List.mem_of_getElem? h3)) h1
          rw [(axiResp_ok _ _).2 hn] at h2
          cases h2
        · exact .inl ⟨h2, h1⟩
    · rw [heX, heY] at hb2; simp [End.isOk] at hb2

end CocotbBus
