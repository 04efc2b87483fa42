import Verif.Proof.AxiManyCore

/-! # Many calls and a memory that answers in time -/

namespace CocotbBus
open Spec Coro

variable {I O P α β : Type}

/-! ### The channels -/

theorem windows_infix (V : Stream I O P) (N : Nat) (a t b : List (O × I)) (h : V.Windows N (a ++ t ++ b)) : V.Windows N t := by
  intro x w y e hw
  exact h (a ++ x) w (y ++ b) (by rw [e]; simp) hw

theorem windows_of_lessThan (V : Stream I O P) (N : Nat) (t : List (O × I)) (h : LessThan N t (fun _ q => V.valid q.1 = true ∧ V.ready q.2 = false)) : V.Windows N t := by
  intro a w b e hw
  apply Nat.lt_of_not_le
  intro hN
  obtain ⟨j, hj, q, hq, hno⟩ := h a.length (by rw [e]; simp; omega)
  apply hno
  apply hw
  rw [e, List.append_assoc, List.getElem?_append_right (by omega), Nat.add_sub_cancel_left, List.getElem?_append_left (by omega)] at hq
  exact List.mem_of_getElem? hq

/-- how long a part of a call takes -/
theorem runs_within {V : Stream I O P} {l : List P} {ns : List Nat} {r : Res I O β} {post : β → Sim I O → Prop} (h : Runs V l ns r post) (N : Nat) (hl : l ≠ [])
    (hw : V.Windows N r.1) : (∃ b s', r.2 = .ok b s' ∧ post b s' ∧ r.1.length ≤ ns.sum + N * l.length) ∨ (∃ s', r.2 = .blocked s' ∧ r.1.length < ns.sum + N * l.length) := by
  obtain ⟨k, hk, h1, -, h3, h4, h5⟩ := h
  have hh : V.Holds r.1 := holds_take V r.1 _ h3
  rcases h5 with ⟨rfl, -, h6, a, s', h7, h8⟩ | ⟨hlt, s', h7, -⟩
  · refine .inl ⟨a, s', h7, h8, ?_⟩
    have hne : r.1 ≠ [] := by
      intro h
      rw [h, List.take_length] at h1
      exact hl h1.symm
    have hq := List.getLast?_eq_some_getLast hne
    have := length_burst V N r.1 _ hw hh hq (h6 _ hq)
    rw [h1, List.take_length] at this
    omega
  · refine .inr ⟨s', h7, ?_⟩
    have := length_windows V N r.1 [] (by simp) (by simpa using hw) hh (by simp)
    rw [h1, List.length_take, Nat.min_eq_left hk] at this
    have : N * k + N ≤ N * l.length := by
      rw [← Nat.mul_succ]
      exact Nat.mul_le_mul_left N hlt
    simp only [List.length_nil] at *
    omega

/-- the calls that take turns on a channel get through -/
theorem channel_live (V : Stream I O P) (body : α → M I O Unit) (hb : ∀ x, Good (body x)) (pl : α → List P) (Q : O → Prop) (N : Nat) (cost : α → Nat) (calls : List (α × Moment)) :
    (∀ x ∈ calls, pl x.1 ≠ [] ∧ x.2.2 ≠ .ro ∧ ∀ s : Sim I O, s.phase ≠ .ro → Q s.out →
      ∃ ns : List Nat, ns.sum + N * (pl x.1).length ≤ cost x.1 ∧ Runs V (pl x.1) ns (body x.1 s) (fun _ s' => s'.phase ≠ .ro ∧ Q s'.out)) →
    ∀ s : Sim I O, s.phase ≠ .ro → Q s.out → V.Windows N (records (locked body calls s).2) →
    ∀ (k B : Nat), k < calls.length → (∀ x ∈ calls.take (k + 1), s.rest.length - x.2.1 ≤ B) → B + ((calls.take (k + 1)).map (fun x => cost x.1)).sum ≤ s.rest.length →
      ∃ (x : Except PyErr Unit) (t : Moment), (locked body calls s).1[k]? = some (x, t) ∧ s.rest.length - t.1 ≤ B + ((calls.take (k + 1)).map (fun x => cost x.1)).sum := by
  induction calls with
  | nil => intro _ s _ _ _ k B hk; simp at hk
  | cons y l ih =>
    obtain ⟨x, t⟩ := y
    intro hx s hs hv hw k B hk hB hsum
    obtain ⟨hne, ht, hrun⟩ := hx (x, t) (by simp)
    simp only at hne ht hrun
    obtain ⟨u, s1, w1, w2, w3, w4, w5, w6⟩ := waitUntil_run (O := O) t ht s hs
    obtain ⟨ns, hns, hr⟩ := hrun s1 w3 (by rw [w2]; exact hv)
    have hgb := hb x s1
    have hL : s.rest.length = u.length + s1.rest.length := by
      have := congrArg List.length w6
      simp at this
      omega
    have hbind : (waitUntil t >>= fun _ => body x) s = (u ++ (body x s1).1, (body x s1).2) := by rw [bind_run, w1, andThen_ok]
    have hlen := congrArg List.length hgb.1
    have hB0 : s.rest.length - t.1 ≤ B := hB (x, t) (by simp)
    simp only [List.take_succ_cons, List.map_cons, List.sum_cons] at hsum
    have hwin : ∃ b, records (locked body ((x, t) :: l) s).2 = u ++ (body x s1).1 ++ b := by
      cases hres : (body x s1).2 with
      | ok b s' =>
        rw [hres] at hbind
        rw [locked_cons _ _ _ _ _ _ _ _ hbind]
        exact ⟨_, records_append _ _⟩
      | err e s' =>
        rw [hres] at hbind
        rw [locked_cons_err _ _ _ _ _ _ _ _ hbind]
        exact ⟨_, records_append _ _⟩
      | blocked s' =>
        rw [hres] at hbind
        rw [locked_blocked _ _ _ _ _ _ _ hbind]
        exact ⟨_, rfl⟩
    obtain ⟨b0, hwin⟩ := hwin
    rw [hwin] at hw
    rcases runs_within hr N hne (windows_infix V N u _ b0 hw) with ⟨b, s', h1, ⟨h2, h3⟩, h4⟩ | ⟨s', h1, h4⟩
    · rw [h1] at hbind hlen
      simp [End.sim] at hlen
      have hlock := locked_cons _ _ _ l _ _ _ _ hbind
      rw [hlock]
      cases k with
      | zero =>
        refine ⟨_, _, rfl, ?_⟩
        simp only [List.take_succ_cons, List.map_cons, List.sum_cons]
        omega
      | succ k =>
        have hrest : V.Windows N (records (locked body l s').2) := by
          have e : records (locked body ((x, t) :: l) s).2 = (u ++ (body x s1).1) ++ records (locked body l s').2 := by rw [hlock]; exact records_append _ _
          rw [← hwin, e] at hw
          exact windows_infix V N (u ++ (body x s1).1) _ [] (by rw [List.append_nil]; exact hw)
        obtain ⟨x', t', g1, g2⟩ := ih (fun z hz => hx z (by simp [hz])) s' h2 h3 hrest k (B + cost x - (u.length + (body x s1).1.length)) (by simpa using hk)
          (by
            intro z hz
            have := hB z (by simp [hz])
            omega)
          (by omega)
        refine ⟨x', t', by simpa using g1, ?_⟩
        simp only [List.take_succ_cons, List.map_cons, List.sum_cons]
        omega
    · exfalso
      have hnone := hgb.2 s' h1
      rw [h1] at hlen
      simp [End.sim, hnone] at hlen
      omega

/-! ### The answers -/

/-- a count of answers that gives one within `N` edges as long as one is due reaches every number that is due -/
theorem resp_live (N L : Nat) (kb J : Nat → Nat) (hk : ∀ n m, n ≤ m → m ≤ L → kb n ≤ kb m) (hJ : ∀ n m, n ≤ m → m ≤ L → J n ≤ J m)
    (hstep : ∀ n, n + N ≤ L → ∃ j < N, kb (n + j) < J (n + j) → kb (n + j + 1) = kb (n + j) + 1) (k n0 : Nat) (h : k < J n0) :
    ∀ d, n0 + d * N ≤ L → d ≤ k + 1 → d ≤ kb (n0 + d * N) := by
  intro d
  induction d with
  | zero => intro _ _; exact Nat.zero_le _
  | succ d ih =>
    intro hL hd
    rw [Nat.succ_mul] at hL ⊢
    have h1 := ih (by omega) (by omega)
    obtain ⟨j, hj, hs⟩ := hstep (n0 + d * N) (by omega)
    have h2 := hk (n0 + d * N) (n0 + d * N + j) (by omega) (by omega)
    have h3 := hk (n0 + d * N + j) (n0 + (d * N + N)) (by omega) (by omega)
    have h4 := hk (n0 + d * N + j + 1) (n0 + (d * N + N)) (by omega) (by omega)
    have h5 := hJ n0 (n0 + d * N + j) (by omega) (by omega)
    by_cases hlt : kb (n0 + d * N + j) < J (n0 + d * N + j)
    · have := hs hlt
      omega
    · omega

variable {c : AxCfg} {rcode : Nat → Nat → Nat} {X : List AxIn} {ops : List AxOp} {A kr nb : Nat → Nat} {V : Nat → Nat → Byte}

/-- the number of beats of the first reads -/
def beatsOf (ops : List AxOp) (k : Nat) : Nat := ((ops.take k).map axBeats).sum

theorem beatsOf_succ (ops : List AxOp) (k : Nat) (op : AxOp) (h : ops[k]? = some op) : beatsOf ops (k + 1) = beatsOf ops k + axBeats op := by
  unfold beatsOf
  rw [take_snoc ops k op h]
  simp

theorem beatsOf_mono (ops : List AxOp) (j k : Nat) (h : j ≤ k) : beatsOf ops j ≤ beatsOf ops k := by
  unfold beatsOf
  rw [← Nat.sub_add_cancel h, Nat.add_comm, List.take_add, List.map_append, List.sum_append]
  exact Nat.le_add_right _ _

/-- beats and reads are counted rightly -/
theorem ReadCount.total (h : ReadCount c rcode X ops A kr nb V) (hpos : ∀ op ∈ ops, 0 < axBeats op) (h0 : nb 0 = 0) (n : Nat) :
    n + 1 ≤ X.length → (∀ op, ops[kr n]? = some op → nb n < axBeats op) ∧
      ∀ m ≤ n, beatsOf ops (kr m) + nb m ≤ beatsOf ops (kr n) + nb n := by
  induction n with
  | zero =>
    intro _
    refine ⟨fun op hop => by rw [h0]; exact hpos op (List.mem_of_getElem? hop), fun m hm => ?_⟩
    rw [Nat.le_zero.1 hm]
    exact Nat.le_refl _
  | succ n ih =>
    intro hn
    obtain ⟨i1, i2⟩ := ih (by omega)
    obtain ⟨i, hi⟩ : ∃ i, X[n]? = some i := ⟨_, List.getElem?_eq_getElem (by omega)⟩
    have key : (∀ op, ops[kr (n + 1)]? = some op → nb (n + 1) < axBeats op) ∧ beatsOf ops (kr n) + nb n ≤ beatsOf ops (kr (n + 1)) + nb (n + 1) := by
      by_cases hq : rFire i = false ∨ A n ≤ kr n
      · obtain ⟨q1, q2⟩ := h.quiet n i (by omega) hi hq
        rw [q1, q2]
        exact ⟨i1, Nat.le_refl _⟩
      · have h1 : rFire i = true := by simpa using fun h => hq (.inl h)
        have h2 : kr n < A n := Nat.lt_of_not_le fun h => hq (.inr h)
        obtain ⟨op, hop⟩ : ∃ op, ops[kr n]? = some op := ⟨_, List.getElem?_eq_getElem (Nat.lt_of_lt_of_le h2 (h.most n))⟩
        obtain ⟨-, -, h3, h4⟩ := h.fire n i op (by omega) hi h1 h2 hop
        have := i1 op hop
        by_cases hb : nb n + 1 = axBeats op
        · obtain ⟨q1, q2⟩ := h3 hb
          rw [q1, q2, beatsOf_succ ops _ op hop]
          exact ⟨fun op' ho => hpos op' (List.mem_of_getElem? ho), by omega⟩
        · obtain ⟨q1, q2⟩ := h4 hb
          rw [q1, q2]
          refine ⟨fun op' ho => ?_, by omega⟩
          rw [hop] at ho
          cases ho
          omega
    refine ⟨key.1, fun m hm => ?_⟩
    by_cases hm' : m ≤ n
    · exact Nat.le_trans (i2 m hm') key.2
    · rw [show m = n + 1 by omega]
      exact Nat.le_refl _

theorem ReadCount.beat (h : ReadCount c rcode X ops A kr nb V) (n : Nat) (i : AxIn) (hn : n + 1 < X.length) (hi : X[n]? = some i) (hf : rFire i = true) (hk : kr n < A n) :
    beatsOf ops (kr (n + 1)) + nb (n + 1) = beatsOf ops (kr n) + nb n + 1 := by
  obtain ⟨op, hop⟩ : ∃ op, ops[kr n]? = some op := ⟨_, List.getElem?_eq_getElem (Nat.lt_of_lt_of_le hk (h.most n))⟩
  obtain ⟨-, -, h3, h4⟩ := h.fire n i op hn hi hf hk hop
  by_cases hb : nb n + 1 = axBeats op
  · obtain ⟨q1, q2⟩ := h3 hb
    rw [q1, q2, beatsOf_succ ops _ op hop]
    omega
  · obtain ⟨q1, q2⟩ := h4 hb
    rw [q1, q2]
    omega

/-- all beats of the reads that are due are sent -/
theorem read_live (h : ReadCount c rcode X ops A kr nb V) (hpos : ∀ op ∈ ops, 0 < axBeats op) (h0 : nb 0 = 0) (hA : ∀ n m, n ≤ m → A n ≤ A m) (N : Nat)
    (hstep : ∀ n, n + N + 1 ≤ X.length → ∃ j < N, ∃ i, X[n + j]? = some i ∧ (kr (n + j) < A (n + j) → rFire i = true)) (k n0 : Nat) (hk : k < A n0) :
    n0 + N * beatsOf ops (k + 1) + 1 ≤ X.length → k < kr (n0 + N * beatsOf ops (k + 1)) := by
  intro hL
  have key : ∀ d, n0 + N * d + 1 ≤ X.length → k < kr (n0 + N * d) ∨ d ≤ beatsOf ops (kr (n0 + N * d)) + nb (n0 + N * d) := by
    intro d
    induction d with
    | zero => intro _; exact .inr (Nat.zero_le _)
    | succ d ih =>
      intro hd
      rw [Nat.mul_succ] at hd ⊢
      obtain ⟨j, hj, i, hi, hf⟩ := hstep (n0 + N * d) (by omega)
      have m1 := h.mono (n0 + N * d) (n0 + (N * d + N)) (by omega) (by omega)
      have m2 := h.mono (n0 + N * d + j) (n0 + (N * d + N)) (by omega) (by omega)
      rcases ih (by omega) with h1 | h1
      · exact .inl (by omega)
      · by_cases hlt : k < kr (n0 + N * d + j)
        · exact .inl (by omega)
        · have a1 := hA n0 (n0 + N * d + j) (by omega)
          have hlt' : kr (n0 + N * d + j) < A (n0 + N * d + j) := by omega
          have b1 := h.beat (n0 + N * d + j) i (by omega) hi (hf hlt') hlt'
          have b2 := (h.total hpos h0 (n0 + N * d + j) (by omega)).2 (n0 + N * d) (by omega)
          have b3 := (h.total hpos h0 (n0 + (N * d + N)) (by omega)).2 (n0 + N * d + j + 1) (by omega)
          exact .inr (by omega)
  rcases key _ hL with h1 | h1
  · exact h1
  · apply Nat.lt_of_not_le
    intro hle
    have hlen : k < ops.length := Nat.lt_of_lt_of_le hk (h.most n0)
    obtain ⟨op, hop⟩ : ∃ op, ops[kr (n0 + N * beatsOf ops (k + 1))]? = some op := ⟨_, List.getElem?_eq_getElem (by omega)⟩
    have b1 := (h.total hpos h0 _ hL).1 op hop
    have b2 := beatsOf_succ ops _ op hop
    have b3 := beatsOf_mono ops (kr (n0 + N * beatsOf ops (k + 1)) + 1) (k + 1) (by omega)
    omega

/-! ### The calls -/

theorem sum_sub (f g : α → Nat) (l : List α) (h : ∀ x ∈ l, g x ≤ f x) : (l.map (fun x => f x - g x)).sum + (l.map g).sum = (l.map f).sum := by
  induction l with
  | nil => rfl
  | cons x l ih =>
    have h1 := h x (by simp)
    have h2 := ih (fun y hy => h y (by simp [hy]))
    simp only [List.map_cons, List.sum_cons]
    omega

theorem sum_const (N : Nat) (l : List α) : (l.map (fun _ => N)).sum = l.length * N := by
  induction l with
  | nil => simp
  | cons x l ih => simp only [List.map_cons, List.sum_cons, ih, List.length_cons, Nat.succ_mul]; omega

theorem sum_mul (N : Nat) (f : α → Nat) (l : List α) : (l.map (fun x => N * f x)).sum = N * (l.map f).sum := by
  induction l with
  | nil => simp
  | cons x l ih => simp only [List.map_cons, List.sum_cons, ih, Nat.mul_add]

theorem lessThan_map {α β : Type} (N : Nat) (T : List α) (f : α → β) (S : α → Prop) (S' : β → Prop) (hS : ∀ a, S' (f a) → S a) (h : LessThan N T (fun _ q => S q)) :
    LessThan N (T.map f) (fun _ q => S' q) := by
  intro n hn
  obtain ⟨j, hj, q, hq, hno⟩ := h n (by simpa using hn)
  exact ⟨j, hj, f q, by rw [List.getElem?_map, hq]; rfl, fun h => hno (hS q h)⟩

theorem many_live (c : AxCfg) (hc : Standard c) (wcode : Nat → Nat) (rcode : Nat → Nat → Nat) (mem : Nat → Byte) (wcalls rcalls : List (AxOp × Moment))
    (hw : CallsOk c IsWrite wcalls) (hr : CallsOk c IsRead rcalls) (s : Sim AxIn AxAll) (hs : s.phase ≠ .ro)
    (hidle : s.out.1.1.valid = .zero ∧ s.out.1.2.valid = .zero ∧ s.out.2.valid = .zero) (N : Nat) :
    let r := axMany c wcalls rcalls s
    (AxPipe.fresh mem).Serves c wcode rcode r.trace → AxPipe.Prompt N c wcode mem r.trace →
    let St : Nat → AxPipe := fun n => AxPipe.run c wcode (AxPipe.fresh mem) (r.trace.take n)
    (∀ k B, k < wcalls.length → (∀ x ∈ wcalls.take (k + 1), edgesAt s x.2 ≤ B) → B + ((wcalls.take (k + 1)).map (fun x => axCost N x.1)).sum ≤ s.rest.length →
      k < (St (B + ((wcalls.take (k + 1)).map (fun x => axCost N x.1)).sum)).responded) ∧
    (∀ k B, k < rcalls.length → (∀ x ∈ rcalls.take (k + 1), edgesAt s x.2 ≤ B) → B + ((rcalls.take (k + 1)).map (fun x => axCost N x.1)).sum ≤ s.rest.length →
      k < (St (B + ((rcalls.take (k + 1)).map (fun x => axCost N x.1)).sum)).answered) := by
  intro r hserves hp St
  obtain ⟨hT1, hT2, hTa, hTw, hTr⟩ := axMany_trace c wcalls rcalls s
  have ca := aw_channel c hc wcalls hw ⟨s.phase, s.out.1.1, s.prev, s.cur, s.rest⟩ hs hidle.1
  have cw := w_channel c hc wcalls hw ⟨s.phase, s.out.1.2, s.prev, s.cur, s.rest⟩ hs hidle.2.1
  have cr := ar_channel c hc rcalls hr ⟨s.phase, s.out.2, s.prev, s.cur, s.rest⟩ hs hidle.2.2
  have hT : (axMany c wcalls rcalls s).trace = r.trace := rfl
  -- the three channels
  have la := channel_live (awStream c) (awJob c) (awJob_good c) (fun op => [opReq c op]) (fun o => o.valid = .zero) N (fun op => axCost N op - N) wcalls
    (by
      intro x hx
      obtain ⟨h1, h2, h3⟩ := hw x hx
      refine ⟨by simp, h3, fun s' hs' hv' => (awJob_runs c hc x.1 h2 h1 s' hs' hv').imp fun ns h => ⟨?_, h.2⟩⟩
      have := h.1 N
      simp only [List.length_singleton]
      omega)
    ⟨s.phase, s.out.1.1, s.prev, s.cur, s.rest⟩ hs hidle.1
    (by
      rw [← hTa, hT]
      exact windows_of_lessThan _ N _ (lessThan_map N r.trace _ _ _ (fun _ h => h) hp.aw))
  have lw := channel_live (wStream c) (wJob c) (wJob_good c) (opData c) (fun o => o.valid = .zero) N (fun op => axCost N op - N) wcalls
    (by
      intro x hx
      obtain ⟨h1, h2, h3⟩ := hw x hx
      refine ⟨(opData_ne c hc x.1 h2 h1).1, h3, fun s' hs' hv' => (wJob_runs c hc x.1 h2 h1 s' hs' hv').imp fun ns h => ⟨?_, h.2⟩⟩
      have := h.1 N
      omega)
    ⟨s.phase, s.out.1.2, s.prev, s.cur, s.rest⟩ hs hidle.2.1
    (by
      rw [← hTw, hT]
      exact windows_of_lessThan _ N _ (lessThan_map N r.trace _ _ _ (fun _ h => h) hp.w))
  have lr := channel_live (arStream c) (arJob c) (arJob_good c) (fun op => [opReq c op]) (fun o => o.valid = .zero) N (fun op => axCost N op - N * axBeats op) rcalls
    (by
      intro x hx
      obtain ⟨h1, h2, h3⟩ := hr x hx
      refine ⟨by simp, h3, fun s' hs' hv' => (arJob_runs c hc x.1 h2 h1 s' hs' hv').imp fun ns h => ⟨?_, h.2⟩⟩
      have := h.1 N
      simp only [List.length_singleton]
      omega)
    ⟨s.phase, s.out.2, s.prev, s.cur, s.rest⟩ hs hidle.2.2
    (by
      rw [← hTr, hT]
      exact windows_of_lessThan _ N _ (lessThan_map N r.trace _ _ _ (fun _ h => h) hp.ar))
  simp only at la lw lr
  rw [← hTa] at ca
  rw [← hTw] at cw
  rw [← hTr] at cr
  rw [hT] at hT1 hT2 ca cw cr
  have hW := write_side c hc wcode mem wcalls hw s.rest.length r.trace _ _ ca cw
  have hSt : ∀ n q, r.trace[n]? = some q → St (n + 1) = (St n).step c wcode q := by
    intro n q hq
    show AxPipe.run _ _ _ _ = _
    rw [take_snoc _ n q hq, pipe_run_snoc]
  have hmono : ∀ n m, n ≤ m → m ≤ s.rest.length → (St n).written ≤ (St m).written ∧ (St n).responded ≤ (St m).responded := by
    intro n m h
    induction m with
    | zero => intro _; rw [Nat.le_zero.1 h]; exact ⟨Nat.le_refl _, Nat.le_refl _⟩
    | succ m ih =>
      intro hm
      by_cases hnm : n ≤ m
      · obtain ⟨i1, i2⟩ := ih hnm (by omega)
        obtain ⟨q, hq⟩ : ∃ q, r.trace[m]? = some q := ⟨_, List.getElem?_eq_getElem (by omega)⟩
        rw [hSt m q hq]
        refine ⟨Nat.le_trans i1 (step_written _ _ _ _), Nat.le_trans i2 ?_⟩
        rw [step_responded]
        split <;> omega
      · rw [show n = m + 1 by omega]
        exact ⟨Nat.le_refl _, Nat.le_refl _⟩
  refine ⟨?_, ?_⟩
  · intro k B hk hB hsum
    have hcost : ∀ x ∈ wcalls.take (k + 1), N ≤ axCost N x.1 := by
      intro x hx
      obtain ⟨h1, h2, -⟩ := hw x (List.mem_of_mem_take hx)
      obtain ⟨_, _, _, _, _, _, _, _, _, h, -⟩ := write_call c hc x.1 h2 h1
      rw [h N]
      omega
    have hadd := sum_sub (fun x : AxOp × Moment => axCost N x.1) (fun _ => N) (wcalls.take (k + 1)) hcost
    rw [sum_const, List.length_take, Nat.min_eq_left (by omega)] at hadd
    obtain ⟨xa, ta, a1, a2⟩ := la k B hk hB (by omega)
    obtain ⟨xw, tw, w1, w2⟩ := lw k B hk hB (by omega)
    have hwr : k < (St (B + ((wcalls.take (k + 1)).map (fun x => axCost N x.1 - N)).sum)).written := by
      refine (hW.ends k hk _ (by omega)).2 ⟨(joinOutcome (xa, ta) (xw, tw)).1, (joinOutcome (xa, ta) (xw, tw)).2, ?_, ?_⟩
      · rw [List.getElem?_zipWith, a1, w1]
      · obtain ⟨f1, -, -⟩ := ca.fine k _ _ a1
        obtain ⟨f2, -, -⟩ := cw.fine k _ _ w1
        subst f1 f2
        show s.rest.length - (laterOf ta tw).1 ≤ _
        rw [laterOf_fst]
        omega
    have hlive := resp_live N s.rest.length (fun n => (St n).responded) (fun n => (St n).written) (fun n m h h' => (hmono n m h h').2) (fun n m h h' => (hmono n m h h').1)
      (by
        intro n hn
        obtain ⟨j, hj, q, hq, hno⟩ := hp.b n (by omega)
        refine ⟨j, hj, fun hlt => ?_⟩
        show (St (n + j + 1)).responded = (St (n + j)).responded + 1
        rw [hSt _ q hq, step_responded]
        have hf : bFire q.2 = true := by
          cases hb : bFire q.2 with
          | true => rfl
          | false => exact absurd ⟨hlt, hb⟩ hno
        rw [hf, Bool.true_and, if_pos (decide_eq_true hlt)])
      k _ hwr (k + 1) (by omega) (Nat.le_refl _)
    rw [show B + ((wcalls.take (k + 1)).map (fun x => axCost N x.1)).sum = B + ((wcalls.take (k + 1)).map (fun x => axCost N x.1 - N)).sum + (k + 1) * N by omega]
    exact hlive
  · intro k B hk hB hsum
    have hcount := read_count c hc wcode rcode mem rcalls hr (s.cur :: s.rest) r.trace hT1 hserves cr.sent
    have hcost : ∀ x ∈ rcalls, N * axBeats x.1 ≤ axCost N x.1 ∧ 0 < axBeats x.1 := by
      intro x hx
      obtain ⟨h1, h2, -⟩ := hr x hx
      obtain ⟨_, len, _, _, _, _, _, h, -, -, -, -, -, -, hpos, hbeats, -⟩ := read_call c hc x.1 h2 h1
      rw [h N]
      exact ⟨Nat.le_add_left _ _, by omega⟩
    have hadd := sum_sub (fun x : AxOp × Moment => axCost N x.1) (fun x => N * axBeats x.1) (rcalls.take (k + 1)) (fun x hx => (hcost x (List.mem_of_mem_take hx)).1)
    have hbt : ((rcalls.take (k + 1)).map (fun x => N * axBeats x.1)).sum = N * beatsOf (rcalls.map Prod.fst) (k + 1) := by
      rw [sum_mul, beatsOf, ← List.map_take, List.map_map]
      rfl
    rw [hbt] at hadd
    obtain ⟨xr, tr, r1, r2⟩ := lr k B hk hB (by omega)
    have hone : (((rcalls.take (k + 1)).map Prod.fst).flatMap (fun op => [opReq c op])).length = k + 1 := by
      rw [flatMap_single]
      simp
      omega
    have hA : k < cnt (arStream c) (arOf r.trace) (B + ((rcalls.take (k + 1)).map (fun x => axCost N x.1 - N * axBeats x.1)).sum) := by
      have := (cr.ends k hk (B + ((rcalls.take (k + 1)).map (fun x => axCost N x.1 - N * axBeats x.1)).sum) (by simp only; omega)).1 ⟨xr, tr, r1, r2⟩
      rw [hone] at this
      exact this
    have hlive := read_live hcount (by
        intro op hop
        obtain ⟨x, hx, rfl⟩ := List.mem_map.1 hop
        exact (hcost x hx).2) rfl (fun n m h => cnt_mono _ _ n m h) N
      (by
        intro n hn
        obtain ⟨j, hj, q, hq, hno⟩ := hp.r n (by rw [hT2]; simpa using hn)
        refine ⟨j, hj, q.2, ?_, fun hlt => ?_⟩
        · have h : (r.trace.map Prod.snd)[n + j]? = some q.2 := by rw [List.getElem?_map, hq]; rfl
          rw [hT1, List.getElem?_dropLast] at h
          split at h
          · exact h
          · cases h
        · cases hb : rFire q.2 with
          | true => rfl
          | false =>
            refine absurd ⟨?_, hb⟩ hno
            intro hnil
            rw [reads_due c wcode mem, hnil] at hlt
            simp at hlt)
      k _ hA (by rw [List.length_cons]; omega)
    rw [show B + ((rcalls.take (k + 1)).map (fun x => axCost N x.1)).sum = B + ((rcalls.take (k + 1)).map (fun x => axCost N x.1 - N * axBeats x.1)).sum + N * beatsOf (rcalls.map Prod.fst) (k + 1) by omega]
    exact hlive

end CocotbBus
