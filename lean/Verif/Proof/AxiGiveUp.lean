import Verif.Spec.AxiGiveUp
import Verif.Proof.AxiManyLive

/-! # Which response a call of `write` takes if others have been given up -/

namespace CocotbBus
open Spec Coro

/-- one call that waits for a response: it takes the next one given after its turn has come -/
theorem bOne (X : List AxIn) (kb J code : Nat → Nat) (hg : ∀ i ∈ X, GoodResp i)
    (hstep : ∀ n i, n + 1 < X.length → X[n]? = some i → kb (n + 1) = if bFire i && decide (kb n < J n) then kb n + 1 else kb n)
    (hright : ∀ n i, n + 1 < X.length → X[n]? = some i → bFire i = true → kb n < J n → respIs i.bresp (code (kb n)))
    (hle : ∀ n, n + 1 ≤ X.length → kb n ≤ J n) (op : AxOp) (t0 : Moment) (ht0 : t0.2 ≠ .ro) (s : Sim AxIn Unit) (n0 k0 : Nat) (hs : s.phase ≠ .ro)
    (hX : s.cur :: s.rest = X.drop n0) (hk : kb n0 ≤ k0) (hJ : ∀ n, n + 1 ≤ X.length → (k0 < J n ↔ X.length - 1 - t0.1 ≤ n)) :
    (∃ e s', ((waitUntil t0 >>= fun _ => bJob op) s).2 = endWith (if code (kb (e - 1)) = 0 then .ok () else .error (.axiProtocol (code (kb (e - 1))))) s' ∧
      s'.phase = .edge ∧ s'.cur :: s'.rest = X.drop e ∧ n0 < e ∧ e + 1 ≤ X.length ∧ kb (e - 1) ≤ k0 ∧ kb e = kb (e - 1) + 1 ∧ k0 < J (e - 1) ∧
      (∀ n, n0 ≤ n → n < e → kb n ≤ k0)) ∨
    (∃ s', ((waitUntil t0 >>= fun _ => bJob op) s).2 = .blocked s' ∧ ∀ n, n0 ≤ n → n + 1 ≤ X.length → kb n ≤ k0) := by
  obtain ⟨u, s1, w1, w2, w3, w4, w5, w6⟩ := waitUntil_run (O := Unit) t0 ht0 s hs
  have hlenX : s.rest.length + 1 + n0 = X.length := by
    have := congrArg List.length hX
    simp at this
    omega
  have hgood := bPhase_good (O := Unit) s1
  have hrun := bPhase_run s1 w3
  have hj : bJob op = bPhase (O := Unit) := rfl
  rw [hX] at w6
  have hX1 := drop_of_append w6.symm
  rw [List.length_map] at hX1
  have hbefore : ∀ d, d < u.length → kb (n0 + d) ≤ k0 := by
    intro d hd
    have h1 := hle (n0 + d) (by omega)
    have h2 : ¬ k0 < J (n0 + d) := by
      rw [hJ _ (by omega)]
      omega
    omega
  have hu : kb (n0 + u.length) ≤ k0 := by
    by_cases h0 : u.length = 0
    · rw [h0]; exact hk
    · obtain ⟨i, hi⟩ : ∃ i, X[n0 + (u.length - 1)]? = some i := ⟨_, List.getElem?_eq_getElem (by omega)⟩
      have h1 := hbefore (u.length - 1) (by omega)
      have h2 : ¬ k0 < J (n0 + (u.length - 1)) := by
        rw [hJ _ (by omega)]
        omega
      rw [show n0 + u.length = n0 + (u.length - 1) + 1 by omega, hstep _ i (by omega) hi]
      split
      · next h =>
        rw [Bool.and_eq_true, decide_eq_true_eq] at h
        omega
      · exact h1
  have hJ1 : ∀ n, n0 + u.length ≤ n → n + 1 ≤ X.length → k0 < J n := by
    intro n hn hn'
    rw [hJ n hn']
    omega
  have hbind : (waitUntil t0 >>= fun _ => bJob op) s = (u ++ (bPhase s1).1, (bPhase s1).2) := by rw [bind_run, w1, andThen_ok, hj]
  have hlen1 : s1.rest.length + 1 + (n0 + u.length) = X.length := by
    have := congrArg List.length hX1
    simp at this
    omega
  obtain ⟨hin, hdone⟩ := hgood
  have hin' := hin
  rw [hX1] at hin'
  have hXe := drop_of_append hin'.symm
  rw [List.length_map] at hXe
  have hend : (bPhase s1).2.sim.rest.length + 1 + (n0 + u.length + (bPhase s1).1.length) = X.length := by
    have := congrArg List.length hXe
    simp at this
    omega
  obtain ⟨-, -, hcase⟩ := hrun
  rw [hbind]
  rcases hcase with ⟨t', q, ht, hno, hyes, n, hresp, hres⟩ | ⟨i, e, hyes, herr, hno, hres, hi⟩ | ⟨hno, hres⟩
  · left
    have htl : (bPhase s1).1.length = t'.length + 1 := by rw [ht]; simp
    have hstay2 : ∀ d, d ≤ t'.length → kb (n0 + u.length + d) = kb (n0 + u.length) := by
      intro d
      induction d with
      | zero => intro _; rfl
      | succ d ihd =>
        intro hd
        have hd' := ihd (by omega)
        have hget : (t'.map Prod.snd ++ [q.2])[d]? = some t'[d].2 := by
          rw [List.getElem?_append_left (by simp; omega), List.getElem?_map, List.getElem?_eq_getElem (by omega)]
          rfl
        have hi := get_of_append (j := d) hin'.symm (by rw [ht, List.map_append]; exact hget)
        have hb := hno t'[d] (List.getElem_mem _)
        rw [show n0 + u.length + (d + 1) = n0 + u.length + d + 1 by omega, hstep _ _ (by omega) hi, hd']
        simp [hb]
    have hq := get_of_append (j := t'.length) (x := q.2) hin'.symm (by rw [ht]; simp)
    have hlt : n0 + u.length + t'.length + 1 < X.length := by omega
    have hkq := hstay2 t'.length (Nat.le_refl _)
    have hJq := hJ1 (n0 + u.length + t'.length) (by omega) (by omega)
    have hcode := hright _ _ hlt hq hyes (by omega)
    have hn : n = code (kb (n0 + u.length + t'.length)) := respIs_unique ((axiResp_ok _ _).1 hresp) hcode
    have hkn : kb (n0 + u.length + t'.length + 1) = kb (n0 + u.length + t'.length) + 1 := by
      rw [hstep _ _ hlt hq, if_pos]
      rw [hyes, Bool.true_and, decide_eq_true_eq]
      omega
    rw [htl] at hend hXe
    obtain ⟨s', z1, z2⟩ := ended_of_result hres (by
      intro e he
      by_cases h0 : n = 0
      · rw [if_pos h0] at he; cases he
      · rw [if_neg h0] at he; cases he; exact ⟨_, rfl⟩)
    have hph := bPhase_end s1 s' z1
    have hsim : (bPhase s1).2.sim = s' := by rw [z2]; split <;> rfl
    rw [hsim] at hend hXe
    refine ⟨n0 + u.length + t'.length + 1, s', ?_, hph, hXe, by omega, by omega, ?_, ?_, ?_, ?_⟩
    · rw [Nat.add_sub_cancel, ← hn]; exact z2
    · rw [Nat.add_sub_cancel]; omega
    · rw [Nat.add_sub_cancel]; exact hkn
    · rw [Nat.add_sub_cancel]; exact hJq
    · intro m hm hm'
      by_cases h : m < n0 + u.length
      · have := hbefore (m - n0) (by omega)
        rwa [show n0 + (m - n0) = m by omega] at this
      · have := hstay2 (m - (n0 + u.length)) (by omega)
        rw [show n0 + u.length + (m - (n0 + u.length)) = m by omega] at this
        omega
  · exfalso
    have himem : i ∈ X := by
      rw [hX1] at hi
      exact List.mem_of_mem_drop (List.mem_of_getElem? hi)
    obtain ⟨n, hn⟩ := hg i himem hyes
    rw [(axiResp_ok _ _).2 hn] at herr
    cases herr
  · right
    obtain ⟨s', h⟩ := blocked_of_none hres
    have hnone : s'.rest = [] := hdone s' h
    have hstay2 : ∀ d, d ≤ (bPhase s1).1.length → kb (n0 + u.length + d) = kb (n0 + u.length) := by
      intro d
      induction d with
      | zero => intro _; rfl
      | succ d ihd =>
        intro hd
        have hd' := ihd (by omega)
        have hi := get_of_append (j := d) (x := (bPhase s1).1[d].2) hin'.symm (by
          rw [List.getElem?_map, List.getElem?_eq_getElem (by omega)]
          rfl)
        have hb := hno (bPhase s1).1[d] (List.getElem_mem _)
        rw [show n0 + u.length + (d + 1) = n0 + u.length + d + 1 by omega, hstep _ _ (by omega) hi, hd']
        simp [hb]
    refine ⟨s', h, ?_⟩
    rw [h] at hend
    simp only [End.sim, hnone, List.length_nil] at hend
    intro m hm hm'
    by_cases hc : m < n0 + u.length
    · have := hbefore (m - n0) (by omega)
      rwa [show n0 + (m - n0) = m by omega] at this
    · have := hstay2 (m - (n0 + u.length)) (by omega)
      rw [show n0 + u.length + (m - (n0 + u.length)) = m by omega] at this
      omega

section
variable {I O α β : Type} (body : α → M I O β) (x : α) (t : Moment) (l : List (α × Moment × Option Moment)) (s : Sim I O)

theorem lockedUntil_end (q : Option Moment) (r : Except PyErr β) (s' : Sim I O) (h : ((waitUntil t >>= fun _ => body x) s).2 = endWith r s')
    (hq : inTime q (s'.rest.length, s'.phase)) :
    lockedUntil body ((x, t, q) :: l) s = some (r, (s'.rest.length, s'.phase)) :: lockedUntil body l s' := by
  cases q with
  | none => cases r <;> rw [lockedUntil.eq_def] <;> simp only [endWith] at h ⊢ <;> rw [h]
  | some q =>
    have hq' : Moment.notAfter (s'.rest.length, s'.phase) q := hq
    cases r <;> rw [lockedUntil.eq_def] <;> simp only [endWith] at h ⊢ <;> rw [h] <;> simp only [if_pos hq']

theorem lockedUntil_late (q : Moment) (r : Except PyErr β) (s' : Sim I O) (h : ((waitUntil t >>= fun _ => body x) s).2 = endWith r s')
    (hq : ¬ Moment.notAfter (s'.rest.length, s'.phase) q) :
    lockedUntil body ((x, t, some q) :: l) s = none :: lockedUntil body l (freeAt t q s) := by
  cases r <;> rw [lockedUntil.eq_def] <;> simp only [endWith] at h ⊢ <;> rw [h] <;> simp only [if_neg hq]

theorem lockedUntil_blocked (s' : Sim I O) (h : ((waitUntil t >>= fun _ => body x) s).2 = .blocked s') :
    lockedUntil body ((x, t, none) :: l) s = none :: l.map (fun _ => none) := by
  rw [lockedUntil.eq_def]
  simp only
  rw [h]

theorem lockedUntil_blocked_late (q : Moment) (s' : Sim I O) (h : ((waitUntil t >>= fun _ => body x) s).2 = .blocked s') :
    lockedUntil body ((x, t, some q) :: l) s = none :: lockedUntil body l (freeAt t q s) := by
  rw [lockedUntil.eq_def]
  simp only
  rw [h]
end

/-- the lock after a task has been given up -/
theorem freeAt_run {I O : Type} (t q : Moment) (hq : q.2 ≠ .ro) (s : Sim I O) (hs : s.phase ≠ .ro) (X : List I) (n0 : Nat) (hX : s.cur :: s.rest = X.drop n0) :
    ∃ n1, n0 ≤ n1 ∧ (n1 = n0 ∨ n1 ≤ X.length - 1 - q.1) ∧ (freeAt t q s).phase ≠ .ro ∧ (freeAt t q s).cur :: (freeAt t q s).rest = X.drop n1 := by
  unfold freeAt
  split
  · obtain ⟨u, s1, w1, w2, w3, w4, w5, w6⟩ := waitUntil_run (O := O) q hq s hs
    rw [w1]
    rw [hX] at w6
    have hX1 := drop_of_append w6.symm
    rw [List.length_map] at hX1
    have hlenX : s.rest.length + 1 + n0 = X.length := by
      have := congrArg List.length hX
      simp at this
      omega
    exact ⟨n0 + u.length, Nat.le_add_right _ _, by omega, w3, hX1⟩
  · exact ⟨n0, Nat.le_refl _, .inl rfl, hs, hX⟩

/-- the calls waiting for their responses, some of which may be given up -/
theorem gthread (X : List AxIn) (kb J code : Nat → Nat) (hg : ∀ i ∈ X, GoodResp i)
    (hstep : ∀ n i, n + 1 < X.length → X[n]? = some i → kb (n + 1) = if bFire i && decide (kb n < J n) then kb n + 1 else kb n)
    (hright : ∀ n i, n + 1 < X.length → X[n]? = some i → bFire i = true → kb n < J n → respIs i.bresp (code (kb n)))
    (hle : ∀ n, n + 1 ≤ X.length → kb n ≤ J n) (calls : List (AxOp × Moment × Option Moment)) :
    ∀ (s : Sim AxIn Unit) (n0 k0 : Nat), s.phase ≠ .ro → s.cur :: s.rest = X.drop n0 → kb n0 ≤ k0 →
      (∀ (j : Nat) (x : AxOp × Moment × Option Moment), calls[j]? = some x → x.2.1.2 ≠ .ro ∧ (∀ q, x.2.2 = some q → q.2 ≠ .ro) ∧
        ∀ n, n + 1 ≤ X.length → (k0 + j < J n ↔ X.length - 1 - x.2.1.1 ≤ n)) →
      (∀ (j : Nat) (x : Except PyErr Unit) (t : Moment), (lockedUntil bJob calls s)[j]? = some (some (x, t)) →
        ∃ e, X.length - 1 - t.1 = e ∧ n0 < e ∧ t.1 + 1 ≤ X.length ∧ kb (e - 1) ≤ k0 + j ∧ kb e = kb (e - 1) + 1 ∧ k0 + j < J (e - 1) ∧
          x = (if code (kb (e - 1)) = 0 then .ok () else .error (.axiProtocol (code (kb (e - 1)))))) ∧
      (∀ (j j' : Nat) (x x' : Except PyErr Unit) (t t' : Moment), j < j' → (lockedUntil bJob calls s)[j]? = some (some (x, t)) →
        (lockedUntil bJob calls s)[j']? = some (some (x', t')) → X.length - 1 - t.1 < X.length - 1 - t'.1) ∧
      (∀ (j : Nat) (y : AxOp × Moment × Option Moment), calls[j]? = some y → ∀ n, n0 ≤ n → n + 1 ≤ X.length → k0 + j < kb n →
        (∃ (x : Except PyErr Unit) (t : Moment), (lockedUntil bJob calls s)[j]? = some (some (x, t)) ∧ X.length - 1 - t.1 ≤ n) ∨
        (∃ q, y.2.2 = some q ∧ X.length - 1 - q.1 ≤ n)) := by
  have hmono : ∀ n m, n ≤ m → m + 1 ≤ X.length → kb n ≤ kb m := by
    intro n m h
    induction m with
    | zero => intro _; rw [Nat.le_zero.1 h]; exact Nat.le_refl _
    | succ m ih =>
      intro hm
      by_cases hn : n ≤ m
      · have h1 := ih hn (by omega)
        obtain ⟨i, hi⟩ : ∃ i, X[m]? = some i := ⟨_, List.getElem?_eq_getElem (by omega)⟩
        rw [hstep m i (by omega) hi]
        split <;> omega
      · rw [show n = m + 1 by omega]
        exact Nat.le_refl _
  induction calls with
  | nil =>
    intro s n0 k0 _ _ _ _
    exact ⟨fun j x t h => by simp [lockedUntil] at h, fun j j' x x' t t' _ h => by simp [lockedUntil] at h, fun j y h => by simp at h⟩
  | cons y l ih =>
    obtain ⟨op, t0, q⟩ := y
    intro s n0 k0 hs hX hk hcalls
    obtain ⟨ht0, hq0, hJ⟩ := hcalls 0 (op, t0, q) rfl
    simp only [Nat.add_zero] at ht0 hq0 hJ
    have hlenX : s.rest.length + 1 + n0 = X.length := by
      have := congrArg List.length hX
      simp at this
      omega
    have hcalls' : ∀ (j : Nat) (x : AxOp × Moment × Option Moment), l[j]? = some x → x.2.1.2 ≠ .ro ∧ (∀ q, x.2.2 = some q → q.2 ≠ .ro) ∧
        ∀ n, n + 1 ≤ X.length → (k0 + 1 + j < J n ↔ X.length - 1 - x.2.1.1 ≤ n) := by
      intro j x hx
      obtain ⟨z1, z2, z3⟩ := hcalls (j + 1) x (by simpa using hx)
      exact ⟨z1, z2, fun n hn => by rw [← z3 n hn, show k0 + 1 + j = k0 + (j + 1) by omega]⟩
    have hone := bOne X kb J code hg hstep hright hle op t0 ht0 s n0 k0 hs hX hk hJ
    -- a call that gets nothing
    have hnone : ∀ s' : Sim AxIn Unit, ∀ n1, n0 ≤ n1 → s'.phase ≠ .ro → s'.cur :: s'.rest = X.drop n1 → kb n1 ≤ k0 + 1 →
        lockedUntil bJob ((op, t0, q) :: l) s = none :: lockedUntil bJob l s' →
        (∀ n, n0 ≤ n → n + 1 ≤ X.length → k0 < kb n → ∃ q', q = some q' ∧ X.length - 1 - q'.1 ≤ n) →
        (∀ (j : Nat) (x : Except PyErr Unit) (t : Moment), (lockedUntil bJob ((op, t0, q) :: l) s)[j]? = some (some (x, t)) →
          ∃ e, X.length - 1 - t.1 = e ∧ n0 < e ∧ t.1 + 1 ≤ X.length ∧ kb (e - 1) ≤ k0 + j ∧ kb e = kb (e - 1) + 1 ∧ k0 + j < J (e - 1) ∧
            x = (if code (kb (e - 1)) = 0 then .ok () else .error (.axiProtocol (code (kb (e - 1)))))) ∧
        (∀ (j j' : Nat) (x x' : Except PyErr Unit) (t t' : Moment), j < j' → (lockedUntil bJob ((op, t0, q) :: l) s)[j]? = some (some (x, t)) →
          (lockedUntil bJob ((op, t0, q) :: l) s)[j']? = some (some (x', t')) → X.length - 1 - t.1 < X.length - 1 - t'.1) ∧
        (∀ (j : Nat) (y : AxOp × Moment × Option Moment), ((op, t0, q) :: l)[j]? = some y → ∀ n, n0 ≤ n → n + 1 ≤ X.length → k0 + j < kb n →
          (∃ (x : Except PyErr Unit) (t : Moment), (lockedUntil bJob ((op, t0, q) :: l) s)[j]? = some (some (x, t)) ∧ X.length - 1 - t.1 ≤ n) ∨
          (∃ q, y.2.2 = some q ∧ X.length - 1 - q.1 ≤ n)) := by
      intro s' n1 hn1 hs' hX' hk' heq hgu
      obtain ⟨i1, i2, i3⟩ := ih s' n1 (k0 + 1) hs' hX' hk' hcalls'
      rw [heq]
      refine ⟨?_, ?_, ?_⟩
      · intro j x t hx
        cases j with
        | zero => simp at hx
        | succ j =>
          obtain ⟨e, a1, a2, a3, a4, a5, a6, a7⟩ := i1 j x t (by simpa using hx)
          exact ⟨e, a1, by omega, a3, by omega, a5, by omega, a7⟩
      · intro j j' x x' t t' hjj hx hx'
        cases j with
        | zero => simp at hx
        | succ j =>
          obtain ⟨j', rfl⟩ : ∃ i, j' = i + 1 := ⟨j' - 1, by omega⟩
          exact i2 j j' x x' t t' (by omega) (by simpa using hx) (by simpa using hx')
      · intro j y hy n hn hn' hlt
        cases j with
        | zero =>
          simp only [List.getElem?_cons_zero, Option.some.injEq] at hy
          subst hy
          exact .inr (hgu n hn hn' hlt)
        | succ j =>
          have hlen' : n1 + 1 ≤ X.length := by
            have := congrArg List.length hX'
            simp at this
            omega
          have hn1' : n1 ≤ n := by
            apply Nat.le_of_not_lt
            intro h
            have := hmono n n1 (by omega) hlen'
            omega
          have := i3 j y (by simpa using hy) n hn1' hn' (by omega)
          simpa using this
    rcases hone with ⟨e, s', h1, h2, h3, h4, h5, h6, h7, h8, h9⟩ | ⟨s', h1, h2⟩
    · have hlen' : s'.rest.length + 1 + e = X.length := by
        have := congrArg List.length h3
        simp at this
        omega
      by_cases hq : inTime q (s'.rest.length, s'.phase)
      · rw [lockedUntil_end _ _ _ _ _ _ _ _ h1 hq]
        obtain ⟨i1, i2, i3⟩ := ih s' e (k0 + 1) (by rw [h2]; decide) h3 (by omega) hcalls'
        refine ⟨?_, ?_, ?_⟩
        · intro j x t hx
          cases j with
          | zero =>
            simp only [List.getElem?_cons_zero, Option.some.injEq, Prod.mk.injEq] at hx
            obtain ⟨rfl, rfl⟩ := hx
            exact ⟨e, by simp only; omega, h4, by simp only; omega, by omega, h7, by omega, rfl⟩
          | succ j =>
            obtain ⟨e', a1, a2, a3, a4, a5, a6, a7⟩ := i1 j x t (by simpa using hx)
            exact ⟨e', a1, by omega, a3, by omega, a5, by omega, a7⟩
        · intro j j' x x' t t' hjj hx hx'
          obtain ⟨j', rfl⟩ : ∃ i, j' = i + 1 := ⟨j' - 1, by omega⟩
          cases j with
          | zero =>
            simp only [List.getElem?_cons_zero, Option.some.injEq, Prod.mk.injEq] at hx
            obtain ⟨rfl, rfl⟩ := hx
            obtain ⟨e', a1, a2, -⟩ := i1 j' x' t' (by simpa using hx')
            simp only
            omega
          | succ j => exact i2 j j' x x' t t' (by omega) (by simpa using hx) (by simpa using hx')
        · intro j y hy n hn hn' hlt
          cases j with
          | zero =>
            refine .inl ⟨_, _, rfl, ?_⟩
            simp only
            apply Nat.le_of_not_lt
            intro h
            have := h9 n hn (by omega)
            omega
          | succ j =>
            have hn1' : e ≤ n := by
              apply Nat.le_of_not_lt
              intro h
              have := h9 n hn h
              omega
            have := i3 j y (by simpa using hy) n hn1' hn' (by omega)
            simpa using this
      · cases hqq : q with
        | none => rw [hqq] at hq; exact absurd trivial hq
        | some q' =>
          rw [hqq] at hq
          have hq' : ¬ Moment.notAfter (s'.rest.length, s'.phase) q' := hq
          obtain ⟨n1, a1, a2, a3, a4⟩ := freeAt_run t0 q' (hq0 q' hqq) s hs X n0 hX
          have hqe : X.length - 1 - q'.1 < e := by
            apply Nat.lt_of_not_le
            intro h
            apply hq'
            unfold Moment.notAfter
            rw [h2]
            simp only [Phase.rank, Nat.zero_le, and_true]
            omega
          have hk1 : kb n1 ≤ k0 + 1 := by
            have := h9 n1 a1 (by omega)
            omega
          subst hqq
          refine hnone _ n1 a1 a3 a4 hk1 (lockedUntil_late _ _ _ _ _ _ _ _ h1 hq') ?_
          intro n hn hn' hlt
          refine ⟨q', rfl, ?_⟩
          apply Nat.le_of_not_lt
          intro h
          have := h9 n hn (by omega)
          omega
    · cases hqq : q with
      | none =>
        rw [lockedUntil_blocked _ _ _ _ _ _ h1]
        refine ⟨?_, ?_, ?_⟩
        · intro j x t hx
          cases j with
          | zero => simp at hx
          | succ j => simp at hx
        · intro j j' x x' t t' hjj hx hx'
          cases j with
          | zero => simp at hx
          | succ j => simp at hx
        · intro j y hy n hn hn' hlt
          have := h2 n hn hn'
          omega
      | some q' =>
        obtain ⟨n1, a1, a2, a3, a4⟩ := freeAt_run t0 q' (hq0 q' hqq) s hs X n0 hX
        have hlen' : n1 + 1 ≤ X.length := by
          have := congrArg List.length a4
          simp at this
          omega
        have hk1 : kb n1 ≤ k0 + 1 := by
          have := h2 n1 a1 hlen'
          omega
        subst hqq
        refine hnone _ n1 a1 a3 a4 hk1 (lockedUntil_blocked_late _ _ _ _ _ _ _ h1) ?_
        intro n hn hn' hlt
        have := h2 n hn hn'
        omega

theorem goOnUntil_get {α : Type} (calls : List (α × Option Moment)) : ∀ outs : List (Got Unit), Fine outs → outs.length ≤ calls.length →
    ∀ (j : Nat) (x : α) (t : Moment) (q : Option Moment), (goOnUntil calls outs)[j]? = some (x, t, q) ↔ calls[j]? = some (x, q) ∧ outs[j]? = some (.ok (), t) := by
  induction calls with
  | nil =>
    intro outs _ hl j x t q
    cases outs with
    | nil => simp [goOnUntil]
    | cons => simp at hl
  | cons y calls ih =>
    obtain ⟨y, q'⟩ := y
    intro outs hf hl j x t q
    cases outs with
    | nil => simp [goOnUntil]
    | cons o outs =>
      obtain ⟨e, t'⟩ := o
      have he := hf 0 e t' rfl
      subst he
      rw [goOnUntil]
      cases j with
      | zero =>
        simp only [List.getElem?_cons_zero, Option.some.injEq, Prod.mk.injEq, true_and]
        constructor
        · rintro ⟨h1, h2, h3⟩; exact ⟨⟨h1, h3⟩, h2⟩
        · rintro ⟨⟨h1, h3⟩, h2⟩; exact ⟨h1, h2, h3⟩
      | succ j =>
        have := ih outs (fun k x t h => hf (k + 1) x t (by simpa using h)) (by simpa using hl) j x t q
        simpa using this

theorem bothPartsUntil_get {β : Type} (outs : List (Got Unit)) : ∀ (qs : List (Option Moment)) (ends : List (Option (Got β))), Fine outs → outs.length ≤ qs.length →
    ∀ (j : Nat) (y : Got β), (bothPartsUntil outs qs ends)[j]? = some (some y) ↔ j < outs.length ∧ ends[j]? = some (some y) := by
  induction outs with
  | nil => intro qs ends _ _ j y; simp [bothPartsUntil]
  | cons o outs ih =>
    intro qs ends hf hl j y
    obtain ⟨e, t'⟩ := o
    have he := hf 0 e t' rfl
    subst he
    have hf' : Fine outs := fun k x t h => hf (k + 1) x t (by simpa using h)
    cases qs with
    | nil => simp at hl
    | cons q qs =>
      have hl' : outs.length ≤ qs.length := by simpa using hl
      cases ends with
      | nil =>
        rw [bothPartsUntil]
        cases j with
        | zero => simp
        | succ j =>
          have := ih qs [] hf' hl' j y
          simpa using this
      | cons z ends =>
        rw [bothPartsUntil]
        cases j with
        | zero => simp
        | succ j =>
          have := ih qs ends hf' hl' j y
          simpa using this

/-- what the calls got, and when, in terms of the memory -/
theorem giveup_core (c : AxCfg) (hc : Standard c) (wcode : Nat → Nat) (rcode : Nat → Nat → Nat) (mem : Nat → Byte) (wcalls : List (AxOp × Moment × Option Moment))
    (rcalls : List (AxOp × Moment)) (hw : GivenOk c wcalls) (s : Sim AxIn AxAll) (hs : s.phase ≠ .ro)
    (hidle : s.out.1.1.valid = .zero ∧ s.out.1.2.valid = .zero ∧ s.out.2.valid = .zero) (hg : ∀ i ∈ s.cur :: s.rest, GoodBeat c.dataBytes i ∧ GoodResp i) :
    let r := axGiveUp c wcalls rcalls s
    (AxPipe.fresh mem).Serves c wcode rcode r.trace →
    let St : Nat → AxPipe := fun n => AxPipe.run c wcode (AxPipe.fresh mem) (r.trace.take n)
    (∀ (k : Nat) (x : Except PyErr Unit) (t : Moment), r.writes[k]? = some (some (x, t)) →
      0 < edgesAt s t ∧ (St (edgesAt s t - 1)).responded ≤ k ∧ (St (edgesAt s t)).responded = (St (edgesAt s t - 1)).responded + 1 ∧ k < (St (edgesAt s t - 1)).written ∧
        x = outcomeOf (wcode (St (edgesAt s t - 1)).responded)) ∧
    (∀ (k k' : Nat) (x x' : Except PyErr Unit) (t t' : Moment), k < k' → r.writes[k]? = some (some (x, t)) → r.writes[k']? = some (some (x', t')) →
      edgesAt s t < edgesAt s t') ∧
    (∀ (k : Nat) (op : AxOp) (t0 : Moment) (q : Option Moment), wcalls[k]? = some (op, t0, q) → ∀ n ≤ s.rest.length, k < (St n).responded →
      (∃ (x : Except PyErr Unit) (t : Moment), r.writes[k]? = some (some (x, t)) ∧ edgesAt s t ≤ n) ∨ (∃ q', q = some q' ∧ edgesAt s q' ≤ n)) := by
  intro r hserves St
  obtain ⟨hT1, hT2, hTa, hTw, hTr⟩ := axMany_trace c (callsOnly wcalls) rcalls s
  have ca := aw_channel c hc (callsOnly wcalls) hw.1 ⟨s.phase, s.out.1.1, s.prev, s.cur, s.rest⟩ hs hidle.1
  have cw := w_channel c hc (callsOnly wcalls) hw.1 ⟨s.phase, s.out.1.2, s.prev, s.cur, s.rest⟩ hs hidle.2.1
  rw [← hTa] at ca
  rw [← hTw] at cw
  have hT : (axMany c (callsOnly wcalls) rcalls s).trace = r.trace := rfl
  rw [hT] at hT1 hT2 ca cw
  have hW := write_side c hc wcode mem (callsOnly wcalls) hw.1 s.rest.length r.trace _ _ ca cw
  let aw := locked (awJob c) (callsOnly wcalls) ⟨s.phase, s.out.1.1, s.prev, s.cur, s.rest⟩
  let w := locked (wJob c) (callsOnly wcalls) ⟨s.phase, s.out.1.2, s.prev, s.cur, s.rest⟩
  let sent := List.zipWith joinOutcome aw.1 w.1
  have hcl : (callsOnly wcalls).length = wcalls.length := by simp [callsOnly]
  have hfew : sent.length ≤ wcalls.length := by rw [← hcl]; exact hW.few
  have hSt : ∀ n q, r.trace[n]? = some q → St (n + 1) = (St n).step c wcode q := by
    intro n q hq
    show AxPipe.run _ _ _ _ = _
    rw [take_snoc _ n q hq, pipe_run_snoc]
  have hrec : ∀ n i, n + 1 < (s.cur :: s.rest).length → (s.cur :: s.rest)[n]? = some i → ∃ q, r.trace[n]? = some q ∧ q.2 = i := by
    intro n i hn hi
    have h : (r.trace.map Prod.snd)[n]? = some i := by
      rw [hT1, List.getElem?_dropLast, if_pos (by omega)]
      exact hi
    rw [List.getElem?_map, Option.map_eq_some_iff] at h
    exact h
  obtain ⟨g1, g2, g3⟩ := gthread (s.cur :: s.rest) (fun n => (St n).responded) (fun n => (St n).written) wcode (fun i hi => (hg i hi).2)
    (by
      intro n i hn hi
      obtain ⟨q, hq, rfl⟩ := hrec n i hn hi
      show (St (n + 1)).responded = _
      rw [hSt n q hq]
      exact step_responded c wcode _ q)
    (by
      intro n i hn hi hf hlt
      obtain ⟨q, hq, rfl⟩ := hrec n i hn hi
      exact (serves_right c wcode rcode r.trace _ hserves n q hq).1 hf hlt)
    (fun n _ => responded_le c wcode mem _)
    (goOnUntil (wcalls.map (fun x => (x.1, x.2.2))) sent) ⟨s.phase, (), s.prev, s.cur, s.rest⟩ 0 0 hs rfl (Nat.le_refl _)
    (by
      intro j x hx
      obtain ⟨op, t, q⟩ := x
      obtain ⟨g1, g2⟩ := (goOnUntil_get (wcalls.map (fun x => (x.1, x.2.2))) sent hW.fine (by rw [List.length_map]; exact hfew) j op t q).1 hx
      have hj : j < wcalls.length := by
        have := (List.getElem?_eq_some_iff.1 g1).1
        simpa using this
      refine ⟨(hW.moments j _ _ g2).1, ?_, ?_⟩
      · intro q' hq'
        rw [List.getElem?_map, Option.map_eq_some_iff] at g1
        obtain ⟨y, hy1, hy2⟩ := g1
        have := hw.2 y (List.mem_of_getElem? hy1) q' (by rw [← hq']; exact (Prod.mk.inj hy2).2)
        exact this.1
      intro n hn
      rw [Nat.zero_add]
      refine (hW.ends j (by rw [hcl]; exact hj) n (by simpa using hn)).trans ?_
      simp only [List.length_cons, Nat.add_sub_cancel]
      constructor
      · rintro ⟨x', t', h1, h2⟩
        rw [show (List.zipWith joinOutcome _ _)[j]? = some (.ok (), t) from g2] at h1
        cases h1
        exact h2
      · intro h
        exact ⟨_, _, g2, h⟩)
  have hget : ∀ (k : Nat) (x : Except PyErr Unit) (t : Moment), r.writes[k]? = some (some (x, t)) ↔ k < sent.length ∧
      (lockedUntil bJob (goOnUntil (wcalls.map (fun x => (x.1, x.2.2))) sent) (⟨s.phase, (), s.prev, s.cur, s.rest⟩ : Sim AxIn Unit))[k]? = some (some (x, t)) :=
    fun k x t => bothPartsUntil_get sent _ _ hW.fine (by rw [List.length_map]; exact hfew) k (x, t)
  have hed : ∀ t : Moment, (s.cur :: s.rest).length - 1 - t.1 = edgesAt s t := fun t => by simp [edgesAt]
  refine ⟨?_, ?_, ?_⟩
  · intro k x t hk
    obtain ⟨e, a1, a2, a3, a4, a5, a6, a7⟩ := g1 k x t ((hget k x t).1 hk).2
    rw [hed] at a1
    subst a1
    rw [Nat.zero_add] at a4 a6
    exact ⟨a2, a4, a5, a6, a7⟩
  · intro k k' x x' t t' hlt hk hk'
    have := g2 k k' x x' t t' hlt ((hget k x t).1 hk).2 ((hget k' x' t').1 hk').2
    rwa [hed, hed] at this
  · intro k op t0 q hk n hn hlt
    have h1 : k < (St n).written := Nat.lt_of_lt_of_le hlt (responded_le c wcode mem _)
    have hkw : k < wcalls.length := (List.getElem?_eq_some_iff.1 hk).1
    obtain ⟨x0, t1, hs0, -⟩ := (hW.ends k (by rw [hcl]; exact hkw) n hn).1 h1
    have hx0 := hW.fine k x0 t1 hs0
    subst hx0
    have hgo := (goOnUntil_get (wcalls.map (fun x => (x.1, x.2.2))) sent hW.fine (by rw [List.length_map]; exact hfew) k op t1 q).2
      ⟨by rw [List.getElem?_map, hk]; rfl, hs0⟩
    rcases g3 k _ hgo n (Nat.zero_le _) (by simpa using hn) (by rw [Nat.zero_add]; exact hlt) with ⟨x, t, b1, b2⟩ | ⟨q', b1, b2⟩
    · exact .inl ⟨x, t, (hget k x t).2 ⟨(List.getElem?_eq_some_iff.1 hs0).1, b1⟩, by rw [← hed]; exact b2⟩
    · exact .inr ⟨q', b1, by rw [← hed]; exact b2⟩

theorem Moment.notAfter_antisymm (t t' : Moment) (h : t.notAfter t') (h' : t'.notAfter t) : t = t' := by
  obtain ⟨n, p⟩ := t
  obtain ⟨n', p'⟩ := t'
  simp only [Moment.notAfter] at h h'
  have e : n = n' := by omega
  have e2 : p.rank = p'.rank := by omega
  subst e
  cases p <;> cases p' <;> simp_all [Phase.rank]

end CocotbBus
