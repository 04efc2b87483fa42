import Verif.Proof.AxiPipe

/-! # The calls waiting for their responses -/

namespace CocotbBus
open Spec Coro

/-- a write that has been carried out has been accepted, and conversely -/
theorem written_iff (c : AxCfg) (wcode : Nat → Nat) (R : List (AddrReq × List WReq))
    (hR : ∀ x ∈ R, (x.1.decode c.dataBytes).2.2.2 = x.2.length ∧ x.2 ≠ []) (mem : Nat → Byte) (T : List (AxAll × AxIn))
    (h1 : (awStream c).taken (awOf T) <+: R.map Prod.fst) (h2 : (wStream c).taken (wOf T) <+: R.flatMap Prod.snd) (k : Nat) (hk : k < R.length) :
    k < (AxPipe.run c wcode (AxPipe.fresh mem) T).written ↔
      k + 1 ≤ ((awStream c).taken (awOf T)).length ∧ ((R.take (k + 1)).flatMap Prod.snd).length ≤ ((wStream c).taken (wOf T)).length := by
  obtain ⟨i1, i2, i3, -, i5⟩ := pipe_state c wcode R hR mem T h1 h2
  generalize AxPipe.run c wcode (AxPipe.fresh mem) T = m at *
  have mono : ∀ i j, i ≤ j → ((R.take i).flatMap Prod.snd).length ≤ ((R.take j).flatMap Prod.snd).length := by
    intro i j hij
    have : R.take i = (R.take j).take i := by rw [List.take_take, Nat.min_eq_left hij]
    rw [this]
    conv => rhs; rw [← List.take_append_drop i (R.take j), List.flatMap_append, List.length_append]
    exact Nat.le_add_right _ _
  have l2 := congrArg List.length i2
  have l3 := congrArg List.length i3
  simp only [List.length_append, List.length_map, List.length_take] at l2 l3
  rw [Nat.min_eq_left i1] at l2
  constructor
  · intro h
    have := mono (k + 1) m.written h
    omega
  · rintro ⟨a1, a2⟩
    apply Nat.lt_of_not_le
    intro hle
    have hlt : m.written < R.length := by omega
    rcases i5 with h | h
    · rw [h] at l2
      simp at l2
      omega
    · have hx := List.getElem?_eq_getElem hlt
      have := h _ hx
      have h3 := mono (m.written + 1) (k + 1) (by omega)
      rw [List.take_add_one, hx, List.flatMap_append, List.length_append] at h3
      simp only [Option.toList_some, List.flatMap_cons, List.flatMap_nil, List.append_nil] at h3
      omega

/-- the inputs from a point of a run on -/
theorem drop_of_append {α : Type} {X a b : List α} {n : Nat} (h : a ++ b = X.drop n) : b = X.drop (n + a.length) := by
  rw [← List.drop_drop, ← h, List.drop_left']
  rfl

theorem get_of_append {α : Type} {X a b : List α} {n j : Nat} {x : α} (h : a ++ b = X.drop n) (hx : a[j]? = some x) : X[n + j]? = some x := by
  have hj := (List.getElem?_eq_some_iff.1 hx).1
  rw [← List.getElem?_drop, ← h, List.getElem?_append_left hj]
  exact hx

/-- the calls waiting for their responses, one after the other: `J n` is the number of writes carried out, `kb n` the number of responses given -/
theorem bthread (X : List AxIn) (kb J code : Nat → Nat) (hg : ∀ i ∈ X, GoodResp i)
    (hstep : ∀ n i, n + 1 < X.length → X[n]? = some i → kb (n + 1) = if bFire i && decide (kb n < J n) then kb n + 1 else kb n)
    (hright : ∀ n i, n + 1 < X.length → X[n]? = some i → bFire i = true → kb n < J n → respIs i.bresp (code (kb n)))
    (calls : List (AxOp × Moment)) :
    ∀ (s : Sim AxIn Unit) (n0 k0 : Nat), s.phase ≠ .ro → s.cur :: s.rest = X.drop n0 → kb n0 = k0 →
      (∀ (j : Nat) (x : AxOp × Moment), calls[j]? = some x → x.2.2 ≠ .ro ∧ ∀ n, n + 1 ≤ X.length → (k0 + j < J n ↔ X.length - 1 - x.2.1 ≤ n)) →
      (∀ (j : Nat) (x : Except PyErr Unit) (t : Moment), (locked bJob calls s).1[j]? = some (x, t) →
        x = (if code (k0 + j) = 0 then .ok () else .error (.axiProtocol (code (k0 + j)))) ∧ k0 + j < J (X.length - 1 - t.1) ∧
          t.1 + 1 ≤ X.length) ∧
      (∀ j < calls.length, ∀ n, n0 ≤ n → n + 1 ≤ X.length →
        ((∃ (x : Except PyErr Unit) (t : Moment), (locked bJob calls s).1[j]? = some (x, t) ∧ X.length - 1 - t.1 ≤ n) ↔ k0 + j < kb n)) := by
  have hmono : ∀ n m, n ≤ m → m + 1 ≤ X.length → kb n ≤ kb m := by
    intro n m h
    induction m with
    | zero => intro _; rw [Nat.le_zero.1 h]; exact Nat.le_refl _
    | succ m ih =>
      intro hm
      by_cases hn : n ≤ m
      · have h1 := ih hn (by omega)
        obtain ⟨i, hi⟩ : ∃ i, X[m]? = some i := ⟨_, List.getElem?_eq_getElem (by omega)⟩
        rw [hstep m i (by omega) hi]
        split <;> omega
      · rw [show n = m + 1 by omega]
        exact Nat.le_refl _
  induction calls with
  | nil => intro s n0 k0 _ _ _ _; exact ⟨fun j x t h => by simp [locked] at h, fun j h => by simp at h⟩
  | cons y l ih =>
    obtain ⟨op, t0⟩ := y
    intro s n0 k0 hs hX hk hcalls
    obtain ⟨ht0, hJ⟩ := hcalls 0 (op, t0) rfl
    rw [Nat.add_zero] at hJ
    simp only at ht0 hJ
    obtain ⟨u, s1, w1, w2, w3, w4, w5, w6⟩ := waitUntil_run (O := Unit) t0 ht0 s hs
    have hlenX : s.rest.length + 1 + n0 = X.length := by
      have := congrArg List.length hX
      simp at this
      omega
    have hgood := bPhase_good (O := Unit) s1
    have hrun := bPhase_run s1 w3
    have hj : bJob op = bPhase (O := Unit) := rfl
    rw [hX] at w6
    have hX1 := drop_of_append w6.symm
    rw [List.length_map] at hX1
    -- no response is taken while waiting for the turn
    have hstay : ∀ d, d ≤ u.length → kb (n0 + d) = k0 := by
      intro d
      induction d with
      | zero => intro _; exact hk
      | succ d ihd =>
        intro hd
        have hd' := ihd (by omega)
        have hin : ∃ i, X[n0 + d]? = some i := ⟨_, List.getElem?_eq_getElem (by omega)⟩
        obtain ⟨i, hi⟩ := hin
        have hb : ¬ k0 < J (n0 + d) := by
          rw [hJ _ (by omega)]
          omega
        have hlt : n0 + d + 1 < X.length := by omega
        rw [show n0 + (d + 1) = n0 + d + 1 by omega, hstep _ i hlt hi, hd']
        simp [hb]
    have hu := hstay u.length (Nat.le_refl _)
    have hJ1 : ∀ n, n0 + u.length ≤ n → n + 1 ≤ X.length → k0 < J n := by
      intro n hn hn'
      rw [hJ n hn']
      omega
    have hbind : (waitUntil t0 >>= fun _ => bJob op) s = (u ++ (bPhase s1).1, (bPhase s1).2) := by rw [bind_run, w1, andThen_ok, hj]
    have hlen1 : s1.rest.length + 1 + (n0 + u.length) = X.length := by
      have := congrArg List.length hX1
      simp at this
      omega
    obtain ⟨hin, hdone⟩ := hgood
    have hin' := hin
    rw [hX1] at hin'
    have hXe := drop_of_append hin'.symm
    rw [List.length_map] at hXe
    have hend : (bPhase s1).2.sim.rest.length + 1 + (n0 + u.length + (bPhase s1).1.length) = X.length := by
      have := congrArg List.length hXe
      simp at this
      omega
    obtain ⟨-, -, hcase⟩ := hrun
    rcases hcase with ⟨t', q, ht, hno, hyes, n, hresp, hres⟩ | ⟨i, e, hyes, herr, hno, hres, hi⟩ | ⟨hno, hres⟩
    · -- the response
      have hstay2 : ∀ d, d ≤ t'.length → kb (n0 + u.length + d) = k0 := by
        intro d
        induction d with
        | zero => intro _; exact hu
        | succ d ihd =>
          intro hd
          have hd' := ihd (by omega)
          have hget : (t'.map Prod.snd ++ [q.2])[d]? = some t'[d].2 := by
            rw [List.getElem?_append_left (by simp; omega), List.getElem?_map, List.getElem?_eq_getElem (by omega)]
            rfl
          have hi := get_of_append (j := d) hin'.symm (by rw [ht, List.map_append]; exact hget)
          have hb := hno t'[d] (List.getElem_mem _)
          rw [ht] at hend
          simp at hend
          rw [show n0 + u.length + (d + 1) = n0 + u.length + d + 1 by omega, hstep _ _ (by omega) hi, hd']
          simp [hb]
      have hq := get_of_append (j := t'.length) (x := q.2) hin'.symm (by rw [ht]; simp)
      have hlt : n0 + u.length + t'.length + 1 < X.length := by
        rw [ht] at hend
        simp at hend
        omega
      have hkq := hstay2 t'.length (Nat.le_refl _)
      have hJq := hJ1 (n0 + u.length + t'.length) (by omega) (by omega)
      have hcode := hright _ _ hlt hq hyes (by rw [hkq]; exact hJq)
      rw [hkq] at hcode
      have hn : n = code k0 := respIs_unique ((axiResp_ok _ _).1 hresp) hcode
      have hkn : kb (n0 + u.length + t'.length + 1) = k0 + 1 := by
        rw [hstep _ _ hlt hq, hkq]
        simp [hyes, hJq]
      have htl : (bPhase s1).1.length = t'.length + 1 := by rw [ht]; simp
      rw [htl] at hend hXe
      -- the rest of the calls
      obtain ⟨s', z1, z2⟩ := ended_of_result hres (by
        intro e he
        by_cases h0 : n = 0
        · rw [if_pos h0] at he; cases he
        · rw [if_neg h0] at he; cases he; exact ⟨_, rfl⟩)
      have hph := bPhase_end s1 s' z1
      have hsim : (bPhase s1).2.sim = s' := by rw [z2]; split <;> rfl
      rw [hsim] at hend hXe
      have hrest := ih s' (n0 + u.length + t'.length + 1) (k0 + 1) (by rw [hph]; decide) hXe hkn (by
        intro j x hx
        obtain ⟨z1, z2⟩ := hcalls (j + 1) x (by simpa using hx)
        exact ⟨z1, fun n hn => by rw [← z2 n hn, show k0 + 1 + j = k0 + (j + 1) by omega]⟩)
      have hlock : (locked bJob ((op, t0) :: l) s).1 =
          ((if n = 0 then .ok () else .error (.axiProtocol n)), (s'.rest.length, s'.phase)) :: (locked bJob l s').1 := by
        rw [z2] at hbind
        by_cases h0 : n = 0
        · rw [if_pos h0] at hbind ⊢
          rw [locked_cons _ _ _ _ _ _ _ _ hbind]
        · rw [if_neg h0] at hbind ⊢
          rw [locked_cons_err _ _ _ _ _ _ _ _ hbind]
      rw [hlock]
      refine ⟨?_, ?_⟩
      · intro j x t hx
        cases j with
        | zero =>
          simp only [List.getElem?_cons_zero, Option.some.injEq, Prod.mk.injEq] at hx
          obtain ⟨rfl, rfl⟩ := hx
          rw [Nat.add_zero, hn]
          exact ⟨rfl, hJ1 _ (by simp only; omega) (by simp only; omega), by simp only; omega⟩
        | succ j =>
          have := hrest.1 j x t (by simpa using hx)
          rw [show k0 + 1 + j = k0 + (j + 1) by omega] at this
          exact this
      · intro j hj n hn0 hnX
        have hlate : n < n0 + u.length + t'.length + 1 → kb n ≤ k0 := by
          intro h
          rw [← hkq]
          exact hmono _ _ (by omega) (by omega)
        cases j with
        | zero =>
          simp only [List.getElem?_cons_zero, Option.some.injEq, Prod.mk.injEq]
          constructor
          · rintro ⟨x, t, ⟨rfl, rfl⟩, h⟩
            simp only at h
            have := hmono (n0 + u.length + t'.length + 1) n (by omega) hnX
            omega
          · intro h
            refine ⟨_, _, ⟨rfl, rfl⟩, ?_⟩
            simp only
            have := hlate
            omega
        | succ j =>
          simp only [List.getElem?_cons_succ]
          by_cases hc : n < n0 + u.length + t'.length + 1
          · have h1 := hlate hc
            constructor
            · rintro ⟨x, t, hx, h⟩
              have h2 := (hrest.2 j (by simpa using hj) (n0 + u.length + t'.length + 1) (Nat.le_refl _) (by omega)).1 ⟨x, t, hx, by omega⟩
              omega
            · intro h
              omega
          · have := hrest.2 j (by simpa using hj) n (by omega) hnX
            rw [show k0 + 1 + j = k0 + (j + 1) by omega] at this
            exact this
    · exfalso
      have himem : i ∈ X := by
        rw [hX1] at hi
        exact List.mem_of_mem_drop (List.mem_of_getElem? hi)
      obtain ⟨n, hn⟩ := hg i himem hyes
      rw [(axiResp_ok _ _).2 hn] at herr
      cases herr
    · obtain ⟨s', h⟩ := blocked_of_none hres
      have hnone : s'.rest = [] := hdone s' h
      have hstay2 : ∀ d, d ≤ (bPhase s1).1.length → kb (n0 + u.length + d) = k0 := by
        intro d
        induction d with
        | zero => intro _; exact hu
        | succ d ihd =>
          intro hd
          have hd' := ihd (by omega)
          have hi := get_of_append (j := d) (x := (bPhase s1).1[d].2) hin'.symm (by
            rw [List.getElem?_map, List.getElem?_eq_getElem (by omega)]
            rfl)
          have hb := hno (bPhase s1).1[d] (List.getElem_mem _)
          rw [show n0 + u.length + (d + 1) = n0 + u.length + d + 1 by omega, hstep _ _ (by omega) hi, hd']
          simp [hb]
      rw [h] at hend
      simp only [End.sim, hnone, List.length_nil] at hend
      rw [h] at hbind
      rw [locked_blocked _ _ _ _ _ _ _ hbind]
      refine ⟨fun j x t hx => by simp at hx, ?_⟩
      intro j hj n hn0 hnX
      have h1 := hmono n (n0 + u.length + (bPhase s1).1.length) (by omega) (by omega)
      rw [hstay2 _ (Nat.le_refl _)] at h1
      constructor
      · rintro ⟨x, t, hx, _⟩
        simp at hx
      · intro h
        omega

end CocotbBus
