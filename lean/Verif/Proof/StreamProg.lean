import Verif.Proof.Stream
import Verif.Proof.AvalonST

/-! # Program parts that offer a payload on a stream -/

namespace CocotbBus
open Coro Spec
variable {I O P α β : Type} (V : Stream I O P)

/-- waiting for ready (if there is such a signal), then the edge -/
theorem offers_wait (hasReady : Bool) (test : I → Bool) (hr : ∀ i, V.ready i = (!hasReady || test i)) (p : P) (t : Sim I O)
    (ht : t.phase ≠ .ro) (hv : V.valid t.out = true) (hp : V.payload t.out = p) (post : Unit → Sim I O → Prop)
    (hpost : ∀ s', s'.out = t.out → s'.phase = .edge → post () s') :
    Offers V p 0 ((when hasReady (waitRO (fun i => .ok (test i))) >>= fun _ => awaitEdge) t) post := by
  have final : ∀ u : Sim I O, u.out = t.out → 
      (∃ s', (awaitEdge : M I O Unit) u = ([], .blocked s') ∧ s'.out = t.out) ∨
      (∃ s', (awaitEdge : M I O Unit) u = ([(t.out, u.cur)], .ok () s') ∧ s'.out = t.out ∧ s'.phase = .edge) := by
    intro u hu
    cases hc : u.rest with
    | nil => exact .inl ⟨u, awaitEdge_nil u hc, hu⟩
    | cons i r => exact .inr ⟨{ u with phase := .edge, prev := u.cur, cur := i, rest := r }, by rw [awaitEdge_cons u i r hc, hu], hu, rfl⟩
  cases hasReady with
  | false =>
    refine ⟨[], [], by simp, by simp, .inr ⟨rfl, ?_⟩⟩
    simp only [when, Bool.false_eq_true, if_false, bind_pure_run]
    rcases final t rfl with ⟨s', a, b⟩ | ⟨s', a, b, c⟩
    · exact .inl ⟨s', by rw [a]; rfl, by rw [b]; exact hv, by rw [b]; exact hp⟩
    · exact .inr ⟨_, (), s', by rw [a]; rfl, hv, hp, by simp [hr], hpost s' b c⟩
  | true =>
    simp only [Bool.not_true, Bool.false_or] at hr
    simp only [when, if_true]
    obtain ⟨ws, h1, h2, h3⟩ := waitRO_run (fun i : I => .ok (test i)) t ht
    refine ⟨[], ws.map (fun i => (t.out, i)), by simp, ?_, .inr ⟨rfl, ?_⟩⟩
    · intro q hq
      obtain ⟨i, hi, rfl⟩ := List.mem_map.1 hq
      have := h2 i hi
      simp only [Except.ok.injEq] at this
      exact ⟨hv, hp, by rw [hr, this]⟩
    · rw [bind_run]
      rcases h3 with ⟨s', a, b, c, e, f⟩ | ⟨e', s', a, b, c, e, f⟩ | ⟨s', a, b, c, e, f⟩
      · have hx : waitRO (fun i : I => .ok (test i)) t = (ws.map (fun i => (t.out, i)), .ok () s') := by rw [← a, ← h1]
        rw [hx, andThen_ok]
        rcases final s' b with ⟨s2, a2, b2⟩ | ⟨s2, a2, b2, c2⟩
        · exact .inl ⟨s2, by rw [a2]; simp, by rw [b2]; exact hv, by rw [b2]; exact hp⟩
        · refine .inr ⟨_, (), s2, by rw [a2]; rfl, hv, hp, ?_, hpost s2 b2 c2⟩
          rw [hr]; simpa using e
      · cases e
      · have hx : waitRO (fun i : I => .ok (test i)) t = (ws.map (fun i => (t.out, i)), .blocked s') := by rw [← a, ← h1]
        rw [hx, andThen_blocked]
        exact .inl ⟨s', rfl, by rw [b]; exact hv, by rw [b]; exact hp⟩

/-- an idle edge before -/
theorem offers_edge {p : P} {n : Nat} {s : Sim I O} {k : Unit → M I O α} {post : α → Sim I O → Prop}
    (hv : V.valid s.out = false)
    (h : ∀ i r, s.rest = i :: r → Offers V p n (k () { s with phase := .edge, prev := s.cur, cur := i, rest := r }) post) :
    Offers V p (n + 1) ((awaitEdge >>= k) s) post := by
  cases hr : s.rest with
  | nil =>
    refine ⟨[], [], by simp, by simp, .inl ⟨s, ?_, hv, by simp⟩⟩
    rw [bind_awaitEdge_nil _ _ hr]
  | cons i r =>
    obtain ⟨idle, held, h1, h2, h3⟩ := h i r hr
    rw [bind_awaitEdge_cons _ _ i r hr]
    refine ⟨(s.out, s.cur) :: idle, held, ?_, h2, ?_⟩
    · intro q hq
      rcases List.mem_cons.1 hq with rfl | hq
      · exact hv
      · exact h1 q hq
    · rcases h3 with ⟨s', a, b, c⟩ | ⟨hl, ⟨s', a, b⟩ | ⟨q, x, s', a, b⟩⟩
      · exact .inl ⟨s', by rw [a], b, by simp; omega⟩
      · exact .inr ⟨by simp; omega, .inl ⟨s', by rw [a]; rfl, b⟩⟩
      · exact .inr ⟨by simp; omega, .inr ⟨q, x, s', by rw [a]; rfl, b⟩⟩

theorem offers_edges {p : P} {n : Nat} {k : Unit → M I O α} {post : α → Sim I O → Prop} (m : Nat) :
    ∀ {s : Sim I O}, V.valid s.out = false → s.phase ≠ .ro →
    (∀ t : Sim I O, t.out = s.out → t.phase ≠ .ro → Offers V p n (k () t) post) →
    Offers V p (m + n) ((edges m >>= k) s) post := by
  induction m with
  | zero =>
    intro s hv hs h
    rw [edges, bind_pure_run, Nat.zero_add]
    exact h s rfl hs
  | succ m ih =>
    intro s hv hs h
    rw [edges, bind_assoc_run, show m + 1 + n = (m + n) + 1 by omega]
    refine offers_edge V hv (fun i r hr => ?_)
    exact ih (by exact hv) (by simp) (fun t h1 h2 => h t h1 h2)

/-- the gap of the validated drivers before -/
theorem offers_gap {p : P} {s : Sim I O} (lower : O → O) (hlow : ∀ o, V.valid (lower o) = false) (v : Valids)
    {k : Valids → M I O α} {post : α → Sim I O → Prop} (hs : s.phase ≠ .ro)
    (h : ∀ t : Sim I O, t.phase ≠ .ro → t.out = (if v.isOff then lower s.out else s.out) →
      Offers V p 0 (k (gapStep v).2 t) post) :
    Offers V p (gapStep v).1 ((gapM lower v >>= k) s) post := by
  unfold gapM
  unfold gapStep at h ⊢
  cases hv : v.isOff with
  | false =>
    simp only [hv, Bool.false_eq_true, if_false] at h ⊢
    rw [bind_pure_run]
    exact h s hs rfl
  | true =>
    simp only [hv, if_true] at h ⊢
    rw [bind_assoc_run, bind_write _ _ _ hs, bind_assoc_run]
    have := offers_edges (n := 0) (p := p) V v.off (s := { s with out := lower s.out })
      (k := fun x => (pure (nextValids v).consume : M I O Valids) >>= k) (post := post) (hlow _) hs
      (fun t h1 h2 => by rw [bind_pure_run]; exact h t h2 h1)
    exact this

end CocotbBus
