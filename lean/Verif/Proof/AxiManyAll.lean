import Verif.Proof.AxiManyRead

/-! # All calls together -/

namespace CocotbBus
open Spec Coro

/-! ### The trace -/

theorem zip_left {I A B : Type} (a : List (A × I)) : ∀ b : List (B × I), a.length = b.length → (List.zipWith (fun q p => ((q.1, p.1), q.2)) a b).map (fun q => (q.1.1, q.2)) = a := by
  induction a with
  | nil => intro b _; rfl
  | cons x a ih =>
    intro b h
    cases b with
    | nil => simp at h
    | cons y b => simp [ih b (by simpa using h)]

theorem zip_right {I A B : Type} (a : List (A × I)) : ∀ b : List (B × I), a.map Prod.snd = b.map Prod.snd → (List.zipWith (fun q p => ((q.1, p.1), q.2)) a b).map (fun q => (q.1.2, q.2)) = b := by
  induction a with
  | nil => intro b h; cases b with
    | nil => rfl
    | cons y b => simp at h
  | cons x a ih =>
    intro b h
    cases b with
    | nil => simp at h
    | cons y b =>
      simp only [List.map_cons, List.cons.injEq] at h
      simp [ih b h.2, h.1]

theorem zip_inputs {I A B : Type} (a : List (A × I)) : ∀ b : List (B × I), a.length = b.length → (List.zipWith (fun q p => ((q.1, p.1), q.2)) a b).map Prod.snd = a.map Prod.snd := by
  intro b h
  conv => rhs; rw [← zip_left a b h]
  simp

/-- the signals of the channels -/
theorem axMany_trace (c : AxCfg) (wcalls rcalls : List (AxOp × Moment)) (s : Sim AxIn AxAll) :
    let T := (axMany c wcalls rcalls s).trace
    T.map Prod.snd = (s.cur :: s.rest).dropLast ∧ T.length = s.rest.length ∧
      awOf T = records (locked (awJob c) wcalls ⟨s.phase, s.out.1.1, s.prev, s.cur, s.rest⟩).2 ∧
      wOf T = records (locked (wJob c) wcalls ⟨s.phase, s.out.1.2, s.prev, s.cur, s.rest⟩).2 ∧
      arOf T = records (locked (arJob c) rcalls ⟨s.phase, s.out.2, s.prev, s.cur, s.rest⟩).2 := by
  intro T
  have h1 := records_inputs (locked_good (awJob c) (awJob_good c) wcalls) ⟨s.phase, s.out.1.1, s.prev, s.cur, s.rest⟩
  have h2 := records_inputs (locked_good (wJob c) (wJob_good c) wcalls) ⟨s.phase, s.out.1.2, s.prev, s.cur, s.rest⟩
  have h3 := records_inputs (locked_good (arJob c) (arJob_good c) rcalls) ⟨s.phase, s.out.2, s.prev, s.cur, s.rest⟩
  simp only at h1 h2 h3
  have l1 := congrArg List.length h1
  have l2 := congrArg List.length h2
  have l3 := congrArg List.length h3
  simp only [List.length_map, List.length_dropLast, List.length_cons, Nat.add_sub_cancel] at l1 l2 l3
  have hT : T = List.zipWith (fun q p => ((q.1, p.1), q.2)) (List.zipWith (fun q p => ((q.1, p.1), q.2))
      (records (locked (awJob c) wcalls ⟨s.phase, s.out.1.1, s.prev, s.cur, s.rest⟩).2) (records (locked (wJob c) wcalls ⟨s.phase, s.out.1.2, s.prev, s.cur, s.rest⟩).2))
      (records (locked (arJob c) rcalls ⟨s.phase, s.out.2, s.prev, s.cur, s.rest⟩).2) := rfl
  generalize records (locked (awJob c) wcalls ⟨s.phase, s.out.1.1, s.prev, s.cur, s.rest⟩).2 = ra at *
  generalize records (locked (wJob c) wcalls ⟨s.phase, s.out.1.2, s.prev, s.cur, s.rest⟩).2 = rw' at *
  generalize records (locked (arJob c) rcalls ⟨s.phase, s.out.2, s.prev, s.cur, s.rest⟩).2 = rr at *
  have hz := zip_inputs ra rw' (by rw [l1, l2])
  have hzl : (List.zipWith (fun (q : AddrOut × AxIn) (p : WOut × AxIn) => ((q.1, p.1), q.2)) ra rw').length = rr.length := by
    rw [List.length_zipWith, l1, l2, l3, Nat.min_self]
  have e1 : T.map Prod.snd = (s.cur :: s.rest).dropLast := by rw [hT, zip_inputs _ rr hzl, hz, h1]
  refine ⟨e1, ?_, ?_, ?_, ?_⟩
  · have := congrArg List.length e1
    simpa using this
  · have := congrArg (List.map (fun (q : (AddrOut × WOut) × AxIn) => (q.1.1, q.2))) (zip_left _ rr hzl)
    rw [← hT, zip_left ra rw' (by rw [l1, l2]), List.map_map] at this
    exact this
  · have := congrArg (List.map (fun (q : (AddrOut × WOut) × AxIn) => (q.1.2, q.2))) (zip_left _ rr hzl)
    rw [← hT, zip_right ra rw' (by rw [h1, h2]), List.map_map] at this
    exact this
  · rw [hT]
    exact zip_right _ rr (by rw [hz, h1, h3])

/-! ### The steps of the memory -/

theorem take_snoc {α : Type} (T : List α) (n : Nat) (q : α) (h : T[n]? = some q) : T.take (n + 1) = T.take n ++ [q] := by
  rw [List.take_add_one, h]
  rfl

theorem serves_right (c : AxCfg) (wcode : Nat → Nat) (rcode : Nat → Nat → Nat) (T : List (AxAll × AxIn)) : ∀ m : AxPipe, m.Serves c wcode rcode T →
    ∀ n q, T[n]? = some q → (AxPipe.run c wcode m (T.take n)).Right c wcode rcode q.2 := by
  induction T with
  | nil => intro m _ n q h; simp at h
  | cons p T ih =>
    intro m hs n q hq
    cases n with
    | zero =>
      have : p = q := by simpa using hq
      subst this
      exact hs.1
    | succ n => exact ih _ hs.2 n q (by simpa using hq)

theorem step_responded (c : AxCfg) (wcode : Nat → Nat) (m : AxPipe) (q : AxAll × AxIn) :
    (m.step c wcode q).responded = if bFire q.2 && decide (m.responded < m.written) then m.responded + 1 else m.responded :=
  (commit_answers c wcode _).1

theorem step_written (c : AxCfg) (wcode : Nat → Nat) (m : AxPipe) (q : AxAll × AxIn) : m.written ≤ (m.step c wcode q).written := by
  unfold AxPipe.step
  simp only
  generalize hm : (AxPipe.mk _ _ _ _ _ _ _ _) = m1
  have hw : m1.written = m.written := by rw [← hm]
  rw [← hw]
  rcases commit_cases c wcode m1 with ⟨_, h⟩ | ⟨p, l, _, _, h⟩ <;> rw [h]
  · exact Nat.le_refl _
  · exact Nat.le_succ _

/-- the addresses accepted at an edge -/
def arNew (c : AxCfg) (q : AxAll × AxIn) : List AddrReq := if (arStream c).xfer (q.1.2, q.2) then [(arStream c).payload q.1.2] else []

theorem step_reads (c : AxCfg) (wcode : Nat → Nat) (m : AxPipe) (q : AxAll × AxIn) :
    ((m.ar = [] ∨ rFire q.2 = false) → (m.step c wcode q).ar = m.ar ++ arNew c q ∧ (m.step c wcode q).beats = m.beats ∧ (m.step c wcode q).answered = m.answered) ∧
    ∀ p l, m.ar = p :: l → rFire q.2 = true →
      (m.beats + 1 = (p.decode c.dataBytes).2.2.2 → (m.step c wcode q).ar = l ++ arNew c q ∧ (m.step c wcode q).beats = 0 ∧ (m.step c wcode q).answered = m.answered + 1) ∧
      (m.beats + 1 ≠ (p.decode c.dataBytes).2.2.2 → (m.step c wcode q).ar = m.ar ++ arNew c q ∧ (m.step c wcode q).beats = m.beats + 1 ∧
        (m.step c wcode q).answered = m.answered) := by
  unfold AxPipe.step
  simp only
  generalize hm : (AxPipe.mk _ _ _ _ _ _ _ _) = m1
  obtain ⟨-, e2, e3, e4⟩ := commit_answers c wcode m1
  rw [e2, e3, e4, ← hm]
  simp only
  refine ⟨?_, ?_⟩
  · rintro (h | h)
    · simp [h, arNew]
    · simp only [h, Bool.false_and]
      cases m.ar <;> simp [arNew]
  · intro p l hp hf
    rw [hp]
    simp only [hf, Bool.true_and]
    refine ⟨fun h => ?_, fun h => ?_⟩
    · simp [h, arNew]
    · simp [h, arNew]

/-- the read part of the memory -/
theorem pipe_reads (c : AxCfg) (wcode : Nat → Nat) (mem : Nat → Byte) (T : List (AxAll × AxIn)) :
    let m := AxPipe.run c wcode (AxPipe.fresh mem) T
    ∃ done, (arStream c).taken (arOf T) = done ++ m.ar ∧ done.length = m.answered := by
  induction T using List.reverseRecOn with
  | nil => exact ⟨[], rfl, rfl⟩
  | append_singleton T q ih =>
    obtain ⟨done, h1, h2⟩ := ih
    simp only
    rw [pipe_run_snoc, arOf_snoc, taken_snoc]
    generalize AxPipe.run c wcode (AxPipe.fresh mem) T = m at *
    obtain ⟨s1, s2⟩ := step_reads c wcode m q
    have hnew : (if (arStream c).xfer (q.1.2, q.2) = true then [(arStream c).payload (q.1.2, q.2).1] else []) = arNew c q := rfl
    rw [hnew, h1]
    by_cases hq : m.ar = [] ∨ rFire q.2 = false
    · obtain ⟨a1, -, a3⟩ := s1 hq
      exact ⟨done, by rw [a1, List.append_assoc], by rw [a3, h2]⟩
    · obtain ⟨q1, q2⟩ := not_or.1 hq
      obtain ⟨p, l, hp⟩ := List.exists_cons_of_ne_nil q1
      obtain ⟨b1, b2⟩ := s2 p l hp (by simpa using q2)
      by_cases hb : m.beats + 1 = (p.decode c.dataBytes).2.2.2
      · obtain ⟨a1, -, a3⟩ := b1 hb
        exact ⟨done ++ [p], by rw [a1, hp]; simp, by rw [a3]; simp [h2]⟩
      · obtain ⟨a1, -, a3⟩ := b2 hb
        exact ⟨done, by rw [a1, List.append_assoc], by rw [a3, h2]⟩

/-- the addresses accepted are those of the reads answered and of those to be answered -/
theorem reads_due (c : AxCfg) (wcode : Nat → Nat) (mem : Nat → Byte) (T : List (AxAll × AxIn)) (n : Nat) :
    cnt (arStream c) (arOf T) n = (AxPipe.run c wcode (AxPipe.fresh mem) (T.take n)).answered + (AxPipe.run c wcode (AxPipe.fresh mem) (T.take n)).ar.length := by
  obtain ⟨done, h1, h2⟩ := pipe_reads c wcode mem (T.take n)
  unfold cnt
  rw [show (arOf T).take n = arOf (T.take n) from (List.map_take ..).symm, h1, List.length_append, h2]

/-- only what has been carried out is answered -/
theorem responded_le (c : AxCfg) (wcode : Nat → Nat) (mem : Nat → Byte) (T : List (AxAll × AxIn)) :
    (AxPipe.run c wcode (AxPipe.fresh mem) T).responded ≤ (AxPipe.run c wcode (AxPipe.fresh mem) T).written := by
  induction T using List.reverseRecOn with
  | nil => exact Nat.le_refl _
  | append_singleton T q ih =>
    rw [pipe_run_snoc, step_responded]
    have := step_written c wcode (AxPipe.run c wcode (AxPipe.fresh mem) T) q
    split
    · next h =>
      simp only [Bool.and_eq_true, decide_eq_true_eq] at h
      omega
    · omega

/-! ### The parts of the calls -/

/-- a list of outcomes none of which is an exception -/
def Fine (outs : List (Got Unit)) : Prop := ∀ (k : Nat) (x : Except PyErr Unit) (t : Moment), outs[k]? = some (x, t) → x = .ok ()

theorem goOn_get {α : Type} (calls : List α) : ∀ outs : List (Got Unit), Fine outs → outs.length ≤ calls.length →
    ∀ (j : Nat) (x : α) (t : Moment), (goOn calls outs)[j]? = some (x, t) ↔ calls[j]? = some x ∧ outs[j]? = some (.ok (), t) := by
  induction calls with
  | nil =>
    intro outs _ hl j x t
    cases outs with
    | nil => simp [goOn]
    | cons => simp at hl
  | cons y calls ih =>
    intro outs hf hl j x t
    cases outs with
    | nil => simp [goOn]
    | cons o outs =>
      obtain ⟨e, t'⟩ := o
      have he := hf 0 e t' rfl
      subst he
      rw [goOn]
      cases j with
      | zero => simp
      | succ j =>
        have := ih outs (fun k x t h => hf (k + 1) x t (by simpa using h)) (by simpa using hl) j x t
        simpa using this

theorem bothParts_get {β : Type} (outs : List (Got Unit)) : ∀ (ends : List (Got β)), Fine outs →
    ∀ (j : Nat) (y : Got β), (bothParts outs ends)[j]? = some (some y) ↔ j < outs.length ∧ ends[j]? = some y := by
  induction outs with
  | nil => intro ends _ j y; simp [bothParts]
  | cons o outs ih =>
    intro ends hf j y
    obtain ⟨e, t'⟩ := o
    have he := hf 0 e t' rfl
    subst he
    have hf' : Fine outs := fun k x t h => hf (k + 1) x t (by simpa using h)
    cases ends with
    | nil =>
      rw [bothParts]
      cases j with
      | zero => simp
      | succ j =>
        have := ih [] hf' j y
        simpa using this
    | cons z ends =>
      rw [bothParts]
      cases j with
      | zero => simp
      | succ j =>
        have := ih ends hf' j y
        simpa using this

theorem laterOf_fst (t t' : Moment) : (laterOf t t').1 = min t.1 t'.1 := by
  unfold laterOf
  split <;> omega

theorem laterOf_phase (t t' : Moment) (h : t.2 ≠ .ro) (h' : t'.2 ≠ .ro) : (laterOf t t').2 ≠ .ro := by
  unfold laterOf
  split <;> assumption

/-! ### Writes -/

theorem awOf_take (T : List (AxAll × AxIn)) (n : Nat) : awOf (T.take n) = (awOf T).take n := by simp [awOf, List.map_take]
theorem wOf_take (T : List (AxAll × AxIn)) (n : Nat) : wOf (T.take n) = (wOf T).take n := by simp [wOf, List.map_take]
theorem arOf_take (T : List (AxAll × AxIn)) (n : Nat) : arOf (T.take n) = (arOf T).take n := by simp [arOf, List.map_take]

theorem taken_take_prefix {I O P : Type} (V : Stream I O P) (R : List (O × I)) (n : Nat) : V.taken (R.take n) <+: V.taken R := by
  conv => rhs; rw [← List.take_append_drop n R, taken_append]
  exact List.prefix_append _ _

/-- what the writes send -/
def wReqsOf (c : AxCfg) (wcalls : List (AxOp × Moment)) : List (AddrReq × List WReq) := wcalls.map (fun x => (opReq c x.1, opData c x.1))

theorem flatMap_single {α β : Type} (f : α → β) (l : List α) : l.flatMap (fun x => [f x]) = l.map f := by
  induction l with
  | nil => rfl
  | cons x l ih => simp [ih]

theorem storeReqs_eq (c : AxCfg) (hc : Standard c) (wcode : Nat → Nat) (wcalls : List (AxOp × Moment)) :
    CallsOk c IsWrite wcalls → ∀ k mem, storeReqs c wcode k (wReqsOf c wcalls) mem = axLast c (fun k _ => wcode k) k (wcalls.map Prod.fst) mem := by
  induction wcalls with
  | nil => intro _ k mem; rfl
  | cons x l ih =>
    intro h k mem
    obtain ⟨h1, h2, -⟩ := h x (by simp)
    have h' : CallsOk c IsWrite l := fun y hy => h y (by simp [hy])
    have hreq : axRequests x.1 = 1 := by
      cases hx : x.1 <;> rw [hx] at h2 <;> first | rfl | cases h2
    have hnext : axNext c (fun _ => wcode k) x.1 mem = if wcode k = 0 then axAfter c x.1 mem else mem := by
      unfold axNext
      have : axCodes (fun _ => wcode k) x.1 = [wcode k] := by
        cases hx : x.1 <;> rw [hx] at h2 <;> first | rfl | cases h2
      rw [this]
      simp
    show storeReqs c wcode (k + 1) (wReqsOf c l) (if wcode k = 0 then burstMem c (opReq c x.1) (opData c x.1) mem else mem) = _
    rw [ih h', List.map_cons, axLast, hreq, hnext, opMem c hc x.1 h2 h1]

structure WriteSide (c : AxCfg) (wcode : Nat → Nat) (mem : Nat → Byte) (wcalls : List (AxOp × Moment)) (L : Nat) (T : List (AxAll × AxIn)) (sent : List (Got Unit)) : Prop where
  most : ∀ n, (AxPipe.run c wcode (AxPipe.fresh mem) (T.take n)).written ≤ wcalls.length
  fine : Fine sent
  few : sent.length ≤ wcalls.length
  moments : ∀ (k : Nat) (x : Except PyErr Unit) (t : Moment), sent[k]? = some (x, t) → t.2 ≠ .ro ∧ t.1 ≤ L
  ends : ∀ k < wcalls.length, ∀ n ≤ L, k < (AxPipe.run c wcode (AxPipe.fresh mem) (T.take n)).written ↔ ∃ (x : Except PyErr Unit) (t : Moment), sent[k]? = some (x, t) ∧ L - t.1 ≤ n
  starts : ∀ (k : Nat) (op : AxOp) (t : Moment), wcalls[k]? = some (op, t) → ∀ n, n ≤ L - t.1 → (AxPipe.run c wcode (AxPipe.fresh mem) (T.take n)).written ≤ k
  mem : ∀ n, (AxPipe.run c wcode (AxPipe.fresh mem) (T.take n)).mem =
    axLast c (fun k _ => wcode k) 0 ((wcalls.map Prod.fst).take (AxPipe.run c wcode (AxPipe.fresh mem) (T.take n)).written) mem

theorem write_side (c : AxCfg) (hc : Standard c) (wcode : Nat → Nat) (mem : Nat → Byte) (wcalls : List (AxOp × Moment)) (hok : CallsOk c IsWrite wcalls)
    (L : Nat) (T : List (AxAll × AxIn)) (aw w : List (Got Unit))
    (ha : Channel (awStream c) (fun op => [opReq c op]) wcalls L aw (awOf T)) (hw : Channel (wStream c) (opData c) wcalls L w (wOf T)) :
    WriteSide c wcode mem wcalls L T (List.zipWith joinOutcome aw w) := by
  have hR : ∀ x ∈ wReqsOf c wcalls, (x.1.decode c.dataBytes).2.2.2 = x.2.length ∧ x.2 ≠ [] := by
    intro x hx
    obtain ⟨y, hy, rfl⟩ := List.mem_map.1 hx
    obtain ⟨h1, h2, -⟩ := hok y hy
    obtain ⟨z1, z2⟩ := opData_ne c hc y.1 h2 h1
    exact ⟨z2, z1⟩
  have hRl : (wReqsOf c wcalls).length = wcalls.length := by simp [wReqsOf]
  have h1 : ∀ n, (awStream c).taken (awOf (T.take n)) <+: (wReqsOf c wcalls).map Prod.fst := by
    intro n
    have h := ha.sent
    rw [flatMap_single, List.map_map] at h
    rw [awOf_take, wReqsOf, List.map_map]
    exact (taken_take_prefix _ _ n).trans h
  have hsnd : ∀ l : List (AxOp × Moment), (wReqsOf c l).flatMap Prod.snd = (l.map Prod.fst).flatMap (opData c) := by
    intro l
    induction l with
    | nil => rfl
    | cons x l ih => simp [wReqsOf] at ih ⊢; exact ih
  have h2 : ∀ n, (wStream c).taken (wOf (T.take n)) <+: (wReqsOf c wcalls).flatMap Prod.snd := by
    intro n
    rw [wOf_take, hsnd]
    exact (taken_take_prefix _ _ n).trans hw.sent
  have hiff := fun k (hk : k < wcalls.length) n => written_iff c wcode (wReqsOf c wcalls) hR mem (T.take n) (h1 n) (h2 n) k (by rw [hRl]; exact hk)
  have htake : ∀ k, (wReqsOf c wcalls).take k = wReqsOf c (wcalls.take k) := fun k => (List.map_take ..).symm
  have hget : ∀ (k : Nat) (o : Got Unit), (List.zipWith joinOutcome aw w)[k]? = some o ↔ ∃ ta tw, aw[k]? = some (.ok (), ta) ∧ w[k]? = some (.ok (), tw) ∧ o = (.ok (), laterOf ta tw) := by
    intro k o
    rw [List.getElem?_zipWith]
    cases hka : aw[k]? with
    | none => simp
    | some oa =>
      obtain ⟨xa, ta⟩ := oa
      obtain ⟨rfl, -⟩ := ha.fine k xa ta hka
      cases hkw : w[k]? with
      | none => simp
      | some ow =>
        obtain ⟨xw, tw⟩ := ow
        obtain ⟨rfl, -⟩ := hw.fine k xw tw hkw
        simp [joinOutcome, eq_comm]
  have hone : ∀ k, k ≤ wcalls.length → (((wcalls.take k).map Prod.fst).flatMap (fun op => [opReq c op])).length = k := by
    intro k hk
    rw [flatMap_single]
    simp [Nat.min_eq_left hk]
  refine ⟨?_, ?_, ?_, ?_, ?_, ?_, ?_⟩
  · intro n
    have := (pipe_state c wcode (wReqsOf c wcalls) hR mem (T.take n) (h1 n) (h2 n)).1
    rwa [hRl] at this
  · intro k x t h
    obtain ⟨_, _, -, -, h⟩ := (hget k _).1 h
    cases h
    rfl
  · rw [List.length_zipWith]
    have := ha.few
    omega
  · intro k x t h
    obtain ⟨ta, tw, g1, g2, g3⟩ := (hget k _).1 h
    cases g3
    obtain ⟨-, a2, a3⟩ := ha.fine k _ _ g1
    obtain ⟨-, b2, b3⟩ := hw.fine k _ _ g2
    exact ⟨laterOf_phase _ _ a2 b2, by rw [laterOf_fst]; omega⟩
  · intro k hk n hn
    rw [hiff k hk n, awOf_take, wOf_take, htake, hsnd]
    have e1 := ha.ends k hk n hn
    have e2 := hw.ends k hk n hn
    rw [hone (k + 1) hk] at e1
    unfold cnt at e1 e2
    rw [← e1, ← e2]
    constructor
    · rintro ⟨⟨xa, ta, a1, a2⟩, xw, tw, b1, b2⟩
      obtain ⟨rfl, -, -⟩ := ha.fine k _ _ a1
      obtain ⟨rfl, -, -⟩ := hw.fine k _ _ b1
      exact ⟨_, _, (hget k _).2 ⟨ta, tw, a1, b1, rfl⟩, by rw [laterOf_fst]; omega⟩
    · rintro ⟨x, t, h, hle⟩
      obtain ⟨ta, tw, g1, g2, g3⟩ := (hget k _).1 h
      cases g3
      rw [laterOf_fst] at hle
      exact ⟨⟨_, _, g1, by omega⟩, _, _, g2, by omega⟩
  · intro k op t hk n hn
    have hkl : k < wcalls.length := (List.getElem?_eq_some_iff.1 hk).1
    apply Nat.le_of_not_lt
    intro h
    have := ((hiff k hkl n).1 h).1
    have h3 := ha.starts k (op, t) hk n hn
    rw [hone k (by omega)] at h3
    rw [awOf_take] at this
    unfold cnt at h3
    omega
  · intro n
    obtain ⟨-, -, -, h4, -⟩ := pipe_state c wcode (wReqsOf c wcalls) hR mem (T.take n) (h1 n) (h2 n)
    rw [h4, htake, storeReqs_eq c hc wcode _ (fun x hx => hok x (List.mem_of_mem_take hx)), List.map_take]

/-! ### Reads -/

theorem read_count (c : AxCfg) (hc : Standard c) (wcode : Nat → Nat) (rcode : Nat → Nat → Nat) (mem : Nat → Byte) (rcalls : List (AxOp × Moment)) (hok : CallsOk c IsRead rcalls)
    (X : List AxIn) (T : List (AxAll × AxIn)) (hT : T.map Prod.snd = X.dropLast) (hserves : (AxPipe.fresh mem).Serves c wcode rcode T)
    (hsent : (arStream c).taken (arOf T) <+: (rcalls.map Prod.fst).flatMap (fun op => [opReq c op])) :
    ReadCount c rcode X (rcalls.map Prod.fst) (cnt (arStream c) (arOf T)) (fun n => (AxPipe.run c wcode (AxPipe.fresh mem) (T.take n)).answered)
      (fun n => (AxPipe.run c wcode (AxPipe.fresh mem) (T.take n)).beats) (fun n => (AxPipe.run c wcode (AxPipe.fresh mem) (T.take n)).mem) := by
  rw [flatMap_single] at hsent
  have hrec : ∀ n i, n + 1 < X.length → X[n]? = some i → ∃ q, T[n]? = some q ∧ q.2 = i := by
    intro n i hn hi
    have h : (T.map Prod.snd)[n]? = some i := by
      rw [hT, List.getElem?_dropLast, if_pos (by omega)]
      exact hi
    rw [List.getElem?_map, Option.map_eq_some_iff] at h
    exact h
  have hcnt : ∀ n, ∃ done, (arStream c).taken (arOf (T.take n)) = done ++ (AxPipe.run c wcode (AxPipe.fresh mem) (T.take n)).ar ∧
      done.length = (AxPipe.run c wcode (AxPipe.fresh mem) (T.take n)).answered ∧
      cnt (arStream c) (arOf T) n = (AxPipe.run c wcode (AxPipe.fresh mem) (T.take n)).answered + (AxPipe.run c wcode (AxPipe.fresh mem) (T.take n)).ar.length := by
    intro n
    obtain ⟨done, h1, h2⟩ := pipe_reads c wcode mem (T.take n)
    refine ⟨done, h1, h2, ?_⟩
    unfold cnt
    rw [← arOf_take, h1, List.length_append, h2]
  refine ⟨?_, ?_, ?_⟩
  · intro n
    have h1 := cnt_le (arStream c) (arOf T) n
    have h2 := hsent.length_le
    simp only [List.length_map] at h2 ⊢
    omega
  · intro n i hn hi hq
    obtain ⟨q, hq1, rfl⟩ := hrec n i hn hi
    obtain ⟨done, -, -, h3⟩ := hcnt n
    rw [take_snoc T n q hq1, pipe_run_snoc]
    have := (step_reads c wcode (AxPipe.run c wcode (AxPipe.fresh mem) (T.take n)) q).1 (by
      rcases hq with h | h
      · exact .inr h
      · left
        rw [h3] at h
        exact List.length_eq_zero_iff.1 (by omega))
    exact ⟨this.2.2, this.2.1⟩
  · intro n i op hn hi hf hlt hop
    obtain ⟨q, hq1, rfl⟩ := hrec n i hn hi
    obtain ⟨done, h1, h2, h3⟩ := hcnt n
    have hright := serves_right c wcode rcode T _ hserves n q hq1
    rw [take_snoc T n q hq1, pipe_run_snoc]
    generalize AxPipe.run c wcode (AxPipe.fresh mem) (T.take n) = m at *
    cases har : m.ar with
    | nil => rw [har] at h3; simp at h3; omega
    | cons p l =>
      have hp : p = opReq c op := by
        have hpre := (arOf_take T n ▸ taken_take_prefix (arStream c) (arOf T) n : (arStream c).taken (arOf (T.take n)) <+: _).trans hsent
        rw [h1, har] at hpre
        obtain ⟨u, hu⟩ := hpre
        have hx := congrArg (fun l => l[m.answered]?) hu
        rw [List.append_assoc, List.getElem?_append_right (by omega), List.getElem?_map, hop] at hx
        simpa [h2] using hx
      obtain ⟨r1, r2, r3, r4⟩ := hright.2 hf p l har
      obtain ⟨s1, s2⟩ := (step_reads c wcode m q).2 p l har hf
      have hmem := List.mem_of_getElem? hop
      obtain ⟨y, hy, rfl⟩ := List.mem_map.1 hmem
      obtain ⟨o1, o2, -⟩ := hok y hy
      have hb : (p.decode c.dataBytes).2.2.2 = axBeats y.1 := by
        obtain ⟨a, len, size, burst, sync, k, mm, -, -, -, -, -, -, -, -, e1, -, -, -, e2, -⟩ := read_call c hc y.1 o2 o1
        rw [hp, e2, e1]
      rw [← hb]
      refine ⟨⟨r2, r1, ?_⟩, r3, fun h => ⟨(s1 h).2.2, (s1 h).2.1⟩, fun h => ⟨(s2 h).2.2, (s2 h).2.1⟩⟩
      rw [← hp]
      exact r4

end CocotbBus
