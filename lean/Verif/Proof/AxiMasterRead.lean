import Verif.Proof.AxiMaster

/-! # AXI4 master: reads -/

namespace CocotbBus
open Coro Spec
variable {I O P α β : Type}

/-- what happens to a transferred beat -/
def rTake (c : AxCfg) (size : Nat) (burst : AxiBurst) (st : RState) (i : AxIn) : M AxIn AddrOut (RState ⊕ RState) := do
  let w ← ofExcept (shiftAndMask i.rdata size st.offset)
  let r ← ofExcept (axiResp i.rresp)
  let st' : RState := ⟨st.data ++ [w], st.resp ++ [r], axiNextOffset c.dataBytes size burst st.offset⟩
  if c.full = false ∨ i.rlast = .one then pure (.inr st')
  else do
    awaitEdge
    pure (.inl st')

theorem rLast_iff (c : AxCfg) (i : AxIn) : rLast c i = true ↔ c.full = false ∨ i.rlast = .one := by simp [rLast]

theorem rBody_run (c : AxCfg) (size : Nat) (burst : AxiBurst) (st : RState) (s : Sim AxIn AddrOut) (hs : s.phase ≠ .ro) :
    rBody c size burst st s = if rFire s.cur then rTake c size burst st s.cur { s with phase := .ro }
      else (awaitEdge >>= fun _ => pure (.inl st)) { s with phase := .ro } := by
  unfold rBody
  rw [bind_readOnly _ _ _ hs, bind_inp_ro _ _ rfl]
  simp only [← rFire_iff]
  split <;> rfl

theorem rTake_consumes (c : AxCfg) (size : Nat) (burst : AxiBurst) (st : RState) (i : AxIn) (s : Sim AxIn AddrOut) (t) (b' : RState) (s')
    (h : rTake c size burst st i s = (t, .ok (.inl b') s')) : s'.rest.length < s.rest.length := by
  unfold rTake at h
  cases h1 : shiftAndMask i.rdata size st.offset with
  | error e => rw [h1, bind_ofExcept_error] at h; cases h
  | ok w =>
    rw [h1, bind_ofExcept_ok] at h
    cases h2 : axiResp i.rresp with
    | error e => rw [h2, bind_ofExcept_error] at h; cases h
    | ok r =>
      rw [h2, bind_ofExcept_ok] at h
      split at h
      · cases h
      · exact consumes_of_edge s _ (Good.pure _) t b' s' h

theorem rBody_consumes (c : AxCfg) (size : Nat) (burst : AxiBurst) : Consumes (rBody c size burst) := by
  intro b s t b' s' h
  by_cases hs : s.phase = .ro
  · unfold rBody at h
    rw [bind_run] at h
    simp [readOnly, hs] at h
  · rw [rBody_run _ _ _ _ s hs] at h
    split at h
    · exact rTake_consumes c size burst b s.cur { s with phase := .ro } t b' s' h
    · exact consumes_of_edge { s with phase := .ro } _ (Good.pure _) t b' s' h

theorem nextOffset_block (size m : Nat) (hm : 0 < m) (burst : AxiBurst) (k : Nat) (hk : k < m) :
    ∃ k' < m, axiNextOffset (size * m) size burst (k * size) = k' * size := by
  unfold axiNextOffset
  split
  · exact ⟨k, hk, rfl⟩
  · refine ⟨(k + 1) % m, Nat.mod_lt _ hm, ?_⟩
    rw [show k * size + size = size * (k + 1) by rw [Nat.mul_add, Nat.mul_comm, Nat.mul_one], Nat.mul_mod_mul_left, Nat.mul_comm]

theorem slice_ok (size m : Nat) (hs : 0 < size) (k : Nat) (hk : k < m) (v : LogicArray) (hv : v.length = 8 * (size * m)) :
    ∃ w, shiftAndMask v size (k * size) = .ok w := by
  refine ⟨_, shiftAndMask_eq v size _ hs ?_⟩
  have : (k + 1) * size ≤ m * size := Nat.mul_le_mul_right _ hk
  rw [Nat.add_mul, Nat.one_mul] at this
  rw [hv, Nat.mul_comm size m]
  omega

/-- the beats of a list of cycles -/
def fired (l : List AxIn) : List AxIn := l.filter rFire

/-- the loop over the read data -/
theorem rLoop_run (c : AxCfg) (size m : Nat) (hs : 0 < size) (hm : 0 < m) (hW : c.dataBytes = size * m) (burst : AxiBurst) (rest : List AxIn) :
    ∀ (ph : Phase) (out : AddrOut) (prev cur : AxIn) (st : RState) (k : Nat), ph ≠ .ro → k < m → st.offset = k * size →
      (∀ i ∈ cur :: rest, GoodBeat c.dataBytes i) →
    let r := loop (rBody c size burst) st (⟨ph, out, prev, cur, rest⟩ : Sim AxIn AddrOut)
    ∃ ws : List AxIn, r.1 = ws.map (fun i => (out, i)) ∧ (∀ i ∈ ws, rFire i = true → rLast c i = false) ∧
      ((∃ st' s', r.2 = .ok st' s' ∧ s'.out = out ∧ s'.phase = .ro ∧ rFire s'.cur = true ∧ rLast c s'.cur = true ∧ cur :: rest = ws ++ s'.cur :: s'.rest ∧
          ∃ sl, axiSlices c.dataBytes size burst st.offset ((fired (ws ++ [s'.cur])).map (·.rdata)) = .ok sl ∧
            st'.data = st.data ++ sl ∧ st'.resp = st.resp ++ (fired (ws ++ [s'.cur])).map (fun i => bitsToNat i.rresp)) ∨
       (∃ s', r.2 = .blocked s' ∧ s'.out = out)) := by
  induction rest with
  | nil =>
    intro ph out prev cur st k hp hk hoff hg
    simp only
    rw [loop_unfold _ (rBody_consumes c size burst), bind_run, rBody_run _ _ _ _ _ hp]
    simp only
    cases hb : rFire cur with
    | false =>
      simp only [Bool.false_eq_true, if_false]
      rw [bind_awaitEdge_nil _ _ rfl]
      exact ⟨[], rfl, by simp, .inr ⟨_, rfl, rfl⟩⟩
    | true =>
      simp only [if_true]
      obtain ⟨hl, n, hn⟩ := hg cur (by simp) hb
      obtain ⟨w, hw⟩ := slice_ok size m hs k hk cur.rdata (by rw [hl, hW])
      unfold rTake
      rw [hoff, hw, bind_ofExcept_ok, (axiResp_ok _ _).2 hn, bind_ofExcept_ok]
      simp only [← rLast_iff]
      cases hl : rLast c cur with
      | true =>
        simp only [if_true]
        refine ⟨[], rfl, by simp, .inl ⟨_, _, rfl, rfl, rfl, hb, hl, rfl, [w], ?_, rfl, ?_⟩⟩
        · simp only [fired, List.nil_append, List.filter_cons, hb, if_true, List.filter_nil, List.map_cons, List.map_nil, axiSlices, hw]
          rfl
        · simp [fired, hb, hn.2.1]
      | false =>
        simp only [Bool.false_eq_true, if_false]
        rw [bind_awaitEdge_nil _ _ rfl]
        exact ⟨[], rfl, by simp, .inr ⟨_, rfl, rfl⟩⟩
  | cons j r ih =>
    intro ph out prev cur st k hp hk hoff hg
    simp only
    rw [loop_unfold _ (rBody_consumes c size burst), bind_run, rBody_run _ _ _ _ _ hp]
    simp only
    cases hb : rFire cur with
    | false =>
      simp only [Bool.false_eq_true, if_false]
      rw [bind_awaitEdge_cons _ _ j r rfl, pure_run]
      simp only [andThen_ok]
      obtain ⟨ws, h1, h2, h3⟩ := ih .edge out cur j st k (by decide) hk hoff (fun i hi => hg i (List.mem_cons_of_mem _ hi))
      refine ⟨cur :: ws, ?_, ?_, ?_⟩
      · rw [List.map_cons, ← h1]; rfl
      · intro i hi hf
        rcases List.mem_cons.1 hi with rfl | hi
        · rw [hb] at hf; cases hf
        · exact h2 i hi hf
      · rcases h3 with ⟨st', s', a1, a2, a3, a4, a5, a6, sl, a7, a8, a9⟩ | h3
        · refine .inl ⟨st', s', a1, a2, a3, a4, a5, by rw [a6]; rfl, sl, ?_, a8, ?_⟩
          · simpa [fired, List.filter_cons, hb] using a7
          · simpa [fired, List.filter_cons, hb] using a9
        · exact .inr h3
    | true =>
      simp only [if_true]
      obtain ⟨hl, n, hn⟩ := hg cur (by simp) hb
      obtain ⟨w, hw⟩ := slice_ok size m hs k hk cur.rdata (by rw [hl, hW])
      unfold rTake
      rw [hoff, hw, bind_ofExcept_ok, (axiResp_ok _ _).2 hn, bind_ofExcept_ok]
      simp only [← rLast_iff]
      cases hl : rLast c cur with
      | true =>
        simp only [if_true]
        refine ⟨[], rfl, by simp, .inl ⟨_, _, rfl, rfl, rfl, hb, hl, rfl, [w], ?_, rfl, ?_⟩⟩
        · simp only [fired, List.nil_append, List.filter_cons, hb, if_true, List.filter_nil, List.map_cons, List.map_nil, axiSlices, hw]
          rfl
        · simp [fired, hb, hn.2.1]
      | false =>
        simp only [Bool.false_eq_true, if_false]
        rw [bind_awaitEdge_cons _ _ j r rfl, pure_run]
        simp only [andThen_ok]
        obtain ⟨k', hk', hoff'⟩ := nextOffset_block size m hm burst k hk
        rw [← hW] at hoff'
        obtain ⟨ws, h1, h2, h3⟩ := ih .edge out cur j ⟨st.data ++ [w], st.resp ++ [n], axiNextOffset c.dataBytes size burst (k * size)⟩ k' (by decide) hk' hoff'
          (fun i hi => hg i (List.mem_cons_of_mem _ hi))
        refine ⟨cur :: ws, ?_, ?_, ?_⟩
        · rw [List.map_cons, ← h1]; rfl
        · intro i hi hf
          rcases List.mem_cons.1 hi with rfl | hi
          · exact hl
          · exact h2 i hi hf
        · rcases h3 with ⟨st', s', a1, a2, a3, a4, a5, a6, sl, a7, a8, a9⟩ | h3
          · refine .inl ⟨st', s', a1, a2, a3, a4, a5, by rw [a6]; rfl, w :: sl, ?_, ?_, ?_⟩
            · simp only [fired, List.cons_append, List.filter_cons, hb, if_true, List.map_cons, axiSlices, hw] at a7 ⊢
              show (axiSlices _ _ _ _ _ >>= _) = _
              rw [a7]
              rfl
            · simpa using a8
            · rw [a9]
              simp [fired, List.filter_cons, hb, hn.2.1]
          · exact .inr h3

theorem axiFinish_offset (a len size : Nat) (burst : AxiBurst) (rr : Bool) (st : RState) (o : Nat) :
    axiFinish a len size burst rr ⟨st.data, st.resp, o⟩ = axiFinish a len size burst rr st := rfl

/-- everything about a read -/
theorem axiReadRun_spec (c : AxCfg) (a len size m : Nat) (burst : AxiBurst) (rr sync : Bool)
    (hf : AddrFits c a len size) (hsz : 0 < size) (hm : 0 < m) (hW : c.dataBytes = size * m)
    (s : Sim AxIn AddrOut) (hs : sync = true ∨ s.phase ≠ .ro) (h0 : s.out.valid = .zero) (hg : ∀ i ∈ s.cur :: s.rest, GoodBeat c.dataBytes i) :
    let r := axiReadRun c a len size burst rr sync s
    ∃ t1 t2 ar, r.1 = t1 ++ t2 ∧ (arStream c).Request (addrReq c a len size burst) (if sync then 1 else 0) t1 ar ∧
      (∀ q ∈ t2, (arStream c).valid q.1 = false) ∧ (ar = false → t2 = [] ∧ result r = none) ∧
      ((result r = none ∧ ∀ q ∈ t2, rFire q.2 = true → rLast c q.2 = false) ∨
       (ar = true ∧ OneBurst c t2 ∧ ∃ sl, axiSlices c.dataBytes size burst (a % c.dataBytes / size * size) ((rBeats t2).map (·.rdata)) = .ok sl ∧
          result r = some (axiFinish a len size burst rr ⟨sl, (rBeats t2).map (fun i => bitsToNat i.rresp), 0⟩))) := by
  intro r
  have hA := sendReadAddress_offers c a len size burst sync hf hsz s hs h0
  have gA := sendReadAddress_good c a len size burst sync s
  obtain ⟨qa, qb, qe⟩ := hA.request
  have hrr : r = Res.andThen (sendReadAddress c a len burst size sync s) (fun _ => do
      let st ← loop (rBody c size burst) ⟨[], [], a % c.dataBytes / size * size⟩
      awaitEdge
      ofExcept (axiFinish a len size burst rr st)) := by
    show axiReadRun c a len size burst rr sync s = _
    unfold axiReadRun
    rw [bind_run]
  generalize hX : sendReadAddress c a len burst size sync s = X at *
  have hX2 : X = (X.1, X.2) := rfl
  cases hx : X.2 with
  | err e s' => exact absurd hx (qe e s')
  | blocked s' =>
    have hr : r = (X.1, .blocked s') := by
      rw [hrr, hX2, hx, andThen_blocked]
    rw [hx] at qa
    exact ⟨_, [], false, by rw [hr]; simp, qa, by simp, fun _ => ⟨rfl, by rw [hr]; rfl⟩, .inl ⟨by rw [hr]; rfl, by simp⟩⟩
  | ok x s1 =>
    rw [hx] at qa
    obtain ⟨p1, p2⟩ := qb x s1 hx
    obtain ⟨g1, _⟩ := gA
    rw [hx] at g1
    simp only [End.sim] at g1
    have hg1 : ∀ i ∈ s1.cur :: s1.rest, GoodBeat c.dataBytes i := by
      intro i hi
      apply hg
      rw [g1]
      exact List.mem_append_right _ hi
    obtain ⟨ws, h1, h2, h3⟩ := rLoop_run c size m hsz hm hW burst s1.rest s1.phase s1.out s1.prev s1.cur ⟨[], [], a % c.dataBytes / size * size⟩ (a / size % m)
      (by rw [p1]; decide) (Nat.mod_lt _ hm) (by simp only; rw [hW, div_mod_block]) hg1
    have hst : (⟨s1.phase, s1.out, s1.prev, s1.cur, s1.rest⟩ : Sim AxIn AddrOut) = s1 := rfl
    rw [hst] at h1 h3
    have hr : r = (X.1 ++ ((do
      let st ← loop (rBody c size burst) ⟨[], [], a % c.dataBytes / size * size⟩
      awaitEdge
      ofExcept (axiFinish a len size burst rr st)) s1).1, ((do
      let st ← loop (rBody c size burst) ⟨[], [], a % c.dataBytes / size * size⟩
      awaitEdge
      ofExcept (axiFinish a len size burst rr st)) s1).2) := by
      rw [hrr, hX2, hx, andThen_ok]
    rw [bind_run] at hr
    have hval : ∀ l : List AxIn, ∀ q ∈ l.map (fun i => (s1.out, i)), (arStream c).valid q.1 = false := by
      intro l q hq
      obtain ⟨i, _, rfl⟩ := List.mem_map.1 hq
      simp [arStream, p2]
    have hnl : ∀ q ∈ ws.map (fun i => (s1.out, i)), rFire q.2 = true → rLast c q.2 = false := by
      intro q hq hf
      obtain ⟨i, hi, rfl⟩ := List.mem_map.1 hq
      exact h2 i hi hf
    rcases h3 with ⟨st', s', a1, a2, a3, a4, a5, a6, sl, a7, a8, a9⟩ | ⟨s', a1, a2⟩
    · have hl : loop (rBody c size burst) ⟨[], [], a % c.dataBytes / size * size⟩ s1 = (ws.map (fun i => (s1.out, i)), .ok st' s') := by rw [← h1, ← a1]
      rw [hl, andThen_ok] at hr
      cases hrest : s'.rest with
      | nil =>
        rw [bind_awaitEdge_nil _ _ hrest] at hr
        simp only [List.append_nil] at hr
        exact ⟨_, ws.map (fun i => (s1.out, i)), true, by rw [hr], qa, hval _, by simp, .inl ⟨by rw [hr]; rfl, hnl⟩⟩
      | cons j rs =>
        rw [bind_awaitEdge_cons _ _ j rs hrest, a2] at hr
        have hfin : ∀ (e : Except PyErr (List LogicArray ⊕ List (LogicArray × Nat))) (z : Sim AxIn AddrOut), (ofExcept e z).1 = [] ∧ result (ofExcept e z) = some e := by
          intro e z
          cases e <;> exact ⟨rfl, rfl⟩
        simp only [(hfin _ _).1] at hr
        have hres : result r = some (axiFinish a len size burst rr st') := by
          rw [hr]
          exact (hfin (axiFinish a len size burst rr st') _).2
        have htr : r.1 = X.1 ++ (ws ++ [s'.cur]).map (fun i => (s1.out, i)) := by
          rw [hr]; simp
        have hbeats : rBeats ((ws ++ [s'.cur]).map (fun i => (s1.out, i))) = fired (ws ++ [s'.cur]) := by
          simp [rBeats, fired, List.map_map, Function.comp_def]
        refine ⟨_, (ws ++ [s'.cur]).map (fun i => (s1.out, i)), true, htr, qa, hval _, by simp, .inr ⟨rfl, ?_, sl, ?_, ?_⟩⟩
        · exact ⟨ws.map (fun i => (s1.out, i)), (s1.out, s'.cur), by simp, a4, a5, hnl⟩
        · rw [hbeats]; exact a7
        · rw [hres, hbeats]
          have : st' = ⟨sl, (fired (ws ++ [s'.cur])).map (fun i => bitsToNat i.rresp), st'.offset⟩ := by
            rw [List.nil_append] at a8 a9
            rw [← a8, ← a9]
          rw [this]
          rfl
    · have hl : loop (rBody c size burst) ⟨[], [], a % c.dataBytes / size * size⟩ s1 = (ws.map (fun i => (s1.out, i)), .blocked s') := by rw [← h1, ← a1]
      rw [hl, andThen_blocked] at hr
      exact ⟨_, ws.map (fun i => (s1.out, i)), true, by rw [hr], qa, hval _, by simp, .inl ⟨by rw [hr]; rfl, hnl⟩⟩

end CocotbBus
