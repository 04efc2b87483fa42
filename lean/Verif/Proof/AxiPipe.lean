import Verif.Proof.AxiManyCalls

/-! # The memory that accepts requests before it has answered earlier ones -/

namespace CocotbBus
open Spec Coro

/-- what the first writes do to a memory that may refuse them -/
def storeReqs (c : AxCfg) (wcode : Nat → Nat) : Nat → List (AddrReq × List WReq) → (Nat → Byte) → (Nat → Byte)
  | _, [], mem => mem
  | k, (p, ws) :: l, mem => storeReqs c wcode (k + 1) l (if wcode k = 0 then burstMem c p ws mem else mem)

theorem storeReqs_append (c : AxCfg) (wcode : Nat → Nat) (l l' : List (AddrReq × List WReq)) : ∀ k mem,
    storeReqs c wcode k (l ++ l') mem = storeReqs c wcode (k + l.length) l' (storeReqs c wcode k l mem) := by
  induction l with
  | nil => intro k mem; rfl
  | cons x l ih =>
    intro k mem
    obtain ⟨p, ws⟩ := x
    rw [List.cons_append, storeReqs, ih, List.length_cons, show k + 1 + l.length = k + (l.length + 1) by omega]
    rfl

theorem pipe_run_snoc (c : AxCfg) (wcode : Nat → Nat) (m : AxPipe) (T : List (AxAll × AxIn)) (q : AxAll × AxIn) :
    AxPipe.run c wcode m (T ++ [q]) = (AxPipe.run c wcode m T).step c wcode q := by
  simp [AxPipe.run, List.foldl_append]

theorem taken_snoc {I O P : Type} (V : Stream I O P) (t : List (O × I)) (q : O × I) : V.taken (t ++ [q]) = V.taken t ++ (if V.xfer q then [V.payload q.1] else []) := by
  rw [taken_append]
  congr 1
  unfold Stream.taken
  by_cases h : V.xfer q = true <;> simp [h]

theorem awOf_snoc (T : List (AxAll × AxIn)) (q : AxAll × AxIn) : awOf (T ++ [q]) = awOf T ++ [(q.1.1.1, q.2)] := by simp [awOf]
theorem wOf_snoc (T : List (AxAll × AxIn)) (q : AxAll × AxIn) : wOf (T ++ [q]) = wOf T ++ [(q.1.1.2, q.2)] := by simp [wOf]
theorem arOf_snoc (T : List (AxAll × AxIn)) (q : AxAll × AxIn) : arOf (T ++ [q]) = arOf T ++ [(q.1.2, q.2)] := by simp [arOf]

/-- storing the next write -/
theorem commit_cases (c : AxCfg) (wcode : Nat → Nat) (m : AxPipe) :
    ((m.aw = [] ∨ ∃ p l, m.aw = p :: l ∧ m.w.length < (p.decode c.dataBytes).2.2.2) ∧ m.commit c wcode = m) ∨
    (∃ p l, m.aw = p :: l ∧ (p.decode c.dataBytes).2.2.2 ≤ m.w.length ∧
      m.commit c wcode = { m with
        mem := if wcode m.written = 0 then burstMem c p (m.w.take (p.decode c.dataBytes).2.2.2) m.mem else m.mem
        aw := l, w := m.w.drop (p.decode c.dataBytes).2.2.2, written := m.written + 1 }) := by
  unfold AxPipe.commit
  cases h : m.aw with
  | nil => exact .inl ⟨.inl rfl, rfl⟩
  | cons p l =>
    simp only
    by_cases hl : (p.decode c.dataBytes).2.2.2 ≤ m.w.length
    · right
      refine ⟨p, l, rfl, hl, ?_⟩
      rw [if_pos hl]
      rfl
    · left
      rw [if_neg hl]
      exact ⟨.inr ⟨p, l, rfl, by omega⟩, rfl⟩

/-- commit does not touch the answers -/
theorem commit_answers (c : AxCfg) (wcode : Nat → Nat) (m : AxPipe) :
    (m.commit c wcode).responded = m.responded ∧ (m.commit c wcode).ar = m.ar ∧ (m.commit c wcode).beats = m.beats ∧ (m.commit c wcode).answered = m.answered := by
  rcases commit_cases c wcode m with ⟨_, h⟩ | ⟨p, l, _, _, h⟩ <;> rw [h] <;> exact ⟨rfl, rfl, rfl, rfl⟩

theorem prefix_next {α : Type} {R : List α} {J : Nat} {a : α} {l : List α} (hJ : J ≤ R.length) (h : R.take J ++ a :: l <+: R) : R[J]? = some a := by
  obtain ⟨u, hu⟩ := h
  have h := congrArg (fun l => l[J]?) hu
  rw [← h, List.append_assoc, List.getElem?_append_right (by simp; omega)]
  simp [Nat.min_eq_left hJ]

/-- what the memory has accepted and carried out -/
theorem pipe_state (c : AxCfg) (wcode : Nat → Nat) (R : List (AddrReq × List WReq))
    (hR : ∀ x ∈ R, (x.1.decode c.dataBytes).2.2.2 = x.2.length ∧ x.2 ≠ []) (mem : Nat → Byte) (T : List (AxAll × AxIn)) :
    (awStream c).taken (awOf T) <+: R.map Prod.fst → (wStream c).taken (wOf T) <+: R.flatMap Prod.snd →
    let m := AxPipe.run c wcode (AxPipe.fresh mem) T
    m.written ≤ R.length ∧ (awStream c).taken (awOf T) = (R.take m.written).map Prod.fst ++ m.aw ∧
      (wStream c).taken (wOf T) = (R.take m.written).flatMap Prod.snd ++ m.w ∧ m.mem = storeReqs c wcode 0 (R.take m.written) mem ∧
      (m.aw = [] ∨ ∀ x, R[m.written]? = some x → m.w.length < x.2.length) := by
  induction T using List.reverseRecOn with
  | nil => exact fun _ _ => ⟨Nat.zero_le _, rfl, rfl, rfl, .inl rfl⟩
  | append_singleton T q ih =>
    intro h1 h2
    rw [awOf_snoc, taken_snoc] at h1
    rw [wOf_snoc, taken_snoc] at h2
    obtain ⟨i1, i2, i3, i4, i5⟩ := ih ((List.prefix_append _ _).trans h1) ((List.prefix_append _ _).trans h2)
    simp only
    rw [pipe_run_snoc, awOf_snoc, wOf_snoc, taken_snoc, taken_snoc]
    generalize hm : AxPipe.run c wcode (AxPipe.fresh mem) T = m at *
    generalize ha : (if (awStream c).xfer (q.1.1.1, q.2) = true then [(awStream c).payload q.1.1.1] else []) = da at *
    generalize hb : (if (wStream c).xfer (q.1.1.2, q.2) = true then [(wStream c).payload q.1.1.2] else []) = db at *
    have hal : da.length ≤ 1 := by rw [← ha]; split <;> simp
    have hbl : db.length ≤ 1 := by rw [← hb]; split <;> simp
    have hstep : ∃ m1 : AxPipe, m.step c wcode q = m1.commit c wcode ∧ m1.aw = m.aw ++ da ∧ m1.w = m.w ++ db ∧ m1.written = m.written ∧ m1.mem = m.mem := by
      refine ⟨_, rfl, ?_, ?_, rfl, rfl⟩
      · rw [← ha]; simp only; split <;> simp
      · rw [← hb]; simp only; split <;> simp
    obtain ⟨m1, e0, e1, e2, e3, e4⟩ := hstep
    rw [e0]
    rw [i2, List.append_assoc, ← e1] at h1 ⊢
    rw [i3, List.append_assoc, ← e2] at h2 ⊢
    rw [← e3] at i1 i4 i5 h1 h2 ⊢
    rw [← e4] at i4
    rcases commit_cases c wcode m1 with ⟨hno, hc⟩ | ⟨p, l, hp, hlen, hc⟩
    · rw [hc]
      refine ⟨i1, rfl, rfl, i4, ?_⟩
      rcases hno with h | ⟨p, l, hp, hlen⟩
      · exact .inl h
      · right
        intro x hx
        rw [hp] at h1
        have hnx := prefix_next (R := R.map Prod.fst) (J := m1.written) (by simpa using i1) (by rw [← List.map_take]; exact h1)
        rw [List.getElem?_map, hx] at hnx
        have : x.1 = p := by simpa using hnx
        rw [← this, (hR x (List.mem_of_getElem? hx)).1] at hlen
        exact hlen
    · rw [hc]
      simp only
      have hnx := prefix_next (R := R.map Prod.fst) (J := m1.written) (a := p) (l := l) (by simpa using i1) (by rw [← List.map_take, ← hp]; exact h1)
      rw [List.getElem?_map, Option.map_eq_some_iff] at hnx
      obtain ⟨x, hx, rfl⟩ := hnx
      have hxR := hR x (List.mem_of_getElem? hx)
      have hlt : m1.written < R.length := (List.getElem?_eq_some_iff.1 hx).1
      have htake : R.take (m1.written + 1) = R.take m1.written ++ [x] := by rw [List.take_add_one, hx]; rfl
      have hsplit : R = R.take m1.written ++ x :: R.drop (m1.written + 1) := by
        have := (List.getElem?_eq_some_iff.1 hx).2
        rw [← this, List.getElem_cons_drop, List.take_append_drop]
      have hw : m1.w <+: x.2 ++ (R.drop (m1.written + 1)).flatMap Prod.snd := by
        have h2' := h2
        conv at h2' => rhs; rw [hsplit]
        rw [List.flatMap_append, List.flatMap_cons, List.prefix_append_right_inj] at h2'
        exact h2'
      rw [hxR.1] at hlen ⊢
      have hwx : m1.w.take x.2.length = x.2 := by
        rw [(List.prefix_iff_eq_take.1 hw), List.take_take, Nat.min_eq_left hlen, List.take_left']
        rfl
      have hwd : m1.w = x.2 ++ m1.w.drop x.2.length := by
        conv => lhs; rw [← List.take_append_drop x.2.length m1.w, hwx]
      refine ⟨hlt, ?_, ?_, ?_, ?_⟩
      · rw [hp, htake]; simp
      · rw [htake, List.flatMap_append, List.append_assoc]
        simp only [List.flatMap_cons, List.flatMap_nil, List.append_nil]
        rw [← hwd]
      · rw [htake, storeReqs_append, ← i4, hwx]
        simp [storeReqs, Nat.min_eq_left i1]
      · rcases i5 with h | h
        · left
          rw [h, List.nil_append] at e1
          rw [e1] at hp
          rw [hp] at hal
          simp at hal
          exact hal
        · right
          intro y hy
          have h' := h x hx
          rw [e2] at hlen ⊢
          simp only [List.length_append, List.length_drop] at hlen ⊢
          have := List.length_pos_iff.2 (hR y (List.mem_of_getElem? hy)).2
          omega

end CocotbBus
