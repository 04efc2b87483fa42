import Verif.Proof.AxiManyAll

/-! # What many calls get -/

namespace CocotbBus
open Spec Coro

/-- a lock is not given to more tasks than have asked for it -/
theorem locked_length {I O α β : Type} (body : α → M I O β) (calls : List (α × Moment)) : ∀ s : Sim I O, (locked body calls s).1.length ≤ calls.length := by
  induction calls with
  | nil => intro s; simp [locked]
  | cons y l ih =>
    obtain ⟨x, t⟩ := y
    intro s
    rcases h : (waitUntil t >>= fun _ => body x) s with ⟨u, b | e | s'⟩
    · next s' => rw [locked_cons _ _ _ _ _ _ _ _ h]; simpa using ih s'
    · next s' => rw [locked_cons_err _ _ _ _ _ _ _ _ h]; simpa using ih s'
    · rw [locked_blocked _ _ _ _ _ _ _ h]; simp

/-- what the calls got, and when, in terms of the memory -/
theorem many_core (c : AxCfg) (hc : Standard c) (wcode : Nat → Nat) (rcode : Nat → Nat → Nat) (mem : Nat → Byte) (wcalls rcalls : List (AxOp × Moment))
    (hw : CallsOk c IsWrite wcalls) (hr : CallsOk c IsRead rcalls) (s : Sim AxIn AxAll) (hs : s.phase ≠ .ro)
    (hidle : s.out.1.1.valid = .zero ∧ s.out.1.2.valid = .zero ∧ s.out.2.valid = .zero) (hg : ∀ i ∈ s.cur :: s.rest, GoodBeat c.dataBytes i ∧ GoodResp i) :
    let r := axMany c wcalls rcalls s
    (AxPipe.fresh mem).Serves c wcode rcode r.trace →
    let St : Nat → AxPipe := fun n => AxPipe.run c wcode (AxPipe.fresh mem) (r.trace.take n)
    (∀ n m, n ≤ m → (St n).written ≤ (St m).written) ∧
    (∀ (k : Nat) (op : AxOp) (t : Moment), wcalls[k]? = some (op, t) → ∀ n ≤ edgesAt s t, (St n).written ≤ k) ∧
    (∀ (k : Nat) (x : Except PyErr Unit) (t : Moment), r.writes[k]? = some (some (x, t)) →
      k < (St (edgesAt s t)).written ∧ x = if wcode k = 0 then .ok () else .error (.axiProtocol (wcode k))) ∧
    (∃ τ : Nat → Nat → Nat, ∀ (k : Nat) (op : AxOp) (t : Moment) (x : Except PyErr (List LogicArray)) (t' : Moment), rcalls[k]? = some (op, t) → r.reads[k]? = some (some (x, t')) →
        (∀ n < axBeats op, edgesAt s t < τ k n ∧ τ k n < edgesAt s t') ∧ (∀ n m, n < m → m < axBeats op → τ k n < τ k m) ∧
        (∀ (k' : Nat) (op' : AxOp) (t0 : Moment) (x' : Except PyErr (List LogicArray)) (t1 : Moment), k' < k → rcalls[k']? = some (op', t0) →
          r.reads[k']? = some (some (x', t1)) → ∀ n < axBeats op, ∀ m < axBeats op', τ k' m < τ k n) ∧
        ReadGot c (rcode k) op (fun n => axLast c (fun k _ => wcode k) 0 ((wcalls.map Prod.fst).take (St (τ k n)).written) mem) x) ∧
    (∀ k n, n ≤ s.rest.length → ((∃ (x : Except PyErr Unit) (t : Moment), r.writes[k]? = some (some (x, t)) ∧ edgesAt s t ≤ n) ↔ k < (St n).responded)) ∧
    (∀ k n, n ≤ s.rest.length → ((∃ (x : Except PyErr (List LogicArray)) (t : Moment), r.reads[k]? = some (some (x, t)) ∧ edgesAt s t ≤ n) ↔ k < (St n).answered)) := by
  intro r hserves St
  obtain ⟨hT1, hT2, hTa, hTw, hTr⟩ := axMany_trace c wcalls rcalls s
  have ca := aw_channel c hc wcalls hw ⟨s.phase, s.out.1.1, s.prev, s.cur, s.rest⟩ hs hidle.1
  have cw := w_channel c hc wcalls hw ⟨s.phase, s.out.1.2, s.prev, s.cur, s.rest⟩ hs hidle.2.1
  have cr := ar_channel c hc rcalls hr ⟨s.phase, s.out.2, s.prev, s.cur, s.rest⟩ hs hidle.2.2
  rw [← hTa] at ca
  rw [← hTw] at cw
  rw [← hTr] at cr
  have hT : (axMany c wcalls rcalls s).trace = r.trace := rfl
  rw [hT] at hT1 hT2 ca cw cr
  -- writes
  have hW := write_side c hc wcode mem wcalls hw s.rest.length r.trace _ _ ca cw
  let aw := locked (awJob c) wcalls ⟨s.phase, s.out.1.1, s.prev, s.cur, s.rest⟩
  let w := locked (wJob c) wcalls ⟨s.phase, s.out.1.2, s.prev, s.cur, s.rest⟩
  let sent := List.zipWith joinOutcome aw.1 w.1
  have hSt : ∀ n q, r.trace[n]? = some q → St (n + 1) = (St n).step c wcode q := by
    intro n q hq
    show AxPipe.run _ _ _ _ = _
    rw [take_snoc _ n q hq, pipe_run_snoc]
  have hmono : ∀ n m, n ≤ m → (St n).written ≤ (St m).written := by
    intro n m h
    induction m with
    | zero => rw [Nat.le_zero.1 h]; exact Nat.le_refl _
    | succ m ih =>
      by_cases hm : n ≤ m
      · refine Nat.le_trans (ih hm) ?_
        cases hq : r.trace[m]? with
        | some q => rw [hSt m q hq]; exact step_written _ _ _ _
        | none =>
          have hl : r.trace.length ≤ m := List.getElem?_eq_none_iff.1 hq
          show (AxPipe.run _ _ _ _).written ≤ (AxPipe.run _ _ _ _).written
          rw [List.take_of_length_le hl, List.take_of_length_le (by omega)]
          exact Nat.le_refl _
      · rw [show n = m + 1 by omega]
        exact Nat.le_refl _
  have hrec : ∀ n i, n + 1 < (s.cur :: s.rest).length → (s.cur :: s.rest)[n]? = some i → ∃ q, r.trace[n]? = some q ∧ q.2 = i := by
    intro n i hn hi
    have h : (r.trace.map Prod.snd)[n]? = some i := by
      rw [hT1, List.getElem?_dropLast, if_pos (by omega)]
      exact hi
    rw [List.getElem?_map, Option.map_eq_some_iff] at h
    exact h
  have hb := bthread (s.cur :: s.rest) (fun n => (St n).responded) (fun n => (St n).written) wcode (fun i hi => (hg i hi).2)
    (by
      intro n i hn hi
      obtain ⟨q, hq, rfl⟩ := hrec n i hn hi
      show (St (n + 1)).responded = _
      rw [hSt n q hq]
      exact step_responded c wcode _ q)
    (by
      intro n i hn hi hf hlt
      obtain ⟨q, hq, rfl⟩ := hrec n i hn hi
      exact (serves_right c wcode rcode r.trace _ hserves n q hq).1 hf hlt)
    (goOn (wcalls.map Prod.fst) sent) ⟨s.phase, (), s.prev, s.cur, s.rest⟩ 0 0 hs rfl rfl
    (by
      intro j x hx
      obtain ⟨op, t⟩ := x
      obtain ⟨g1, g2⟩ := (goOn_get (wcalls.map Prod.fst) sent hW.fine (by rw [List.length_map]; exact hW.few) j op t).1 hx
      have hj : j < wcalls.length := by
        have := (List.getElem?_eq_some_iff.1 g1).1
        simpa using this
      refine ⟨(hW.moments j _ _ g2).1, ?_⟩
      intro n hn
      rw [Nat.zero_add]
      refine (hW.ends j hj n (by simpa using hn)).trans ?_
      simp only [List.length_cons, Nat.add_sub_cancel]
      constructor
      · rintro ⟨x', t', h1, h2⟩
        rw [show (List.zipWith joinOutcome _ _)[j]? = some (.ok (), t) from g2] at h1
        cases h1
        exact h2
      · intro h
        exact ⟨_, _, g2, h⟩)
  -- reads
  have hcount := read_count c hc wcode rcode mem rcalls hr (s.cur :: s.rest) r.trace hT1 hserves cr.sent
  let ar := locked (arJob c) rcalls ⟨s.phase, s.out.2, s.prev, s.cur, s.rest⟩
  have hfr : Fine ar.1 := fun k x t h => (cr.fine k x t h).1
  have hone : ∀ k, k ≤ rcalls.length → (((rcalls.take k).map Prod.fst).flatMap (fun op => [opReq c op])).length = k := by
    intro k hk
    rw [flatMap_single]
    simp [Nat.min_eq_left hk]
  obtain ⟨⟨τ, hτ⟩, hra⟩ := rthread hc hcount (fun i hi => (hg i hi).1) (goOn (rcalls.map Prod.fst) ar.1) ⟨s.phase, s.out.2, s.prev, s.cur, s.rest⟩ 0 0 hs rfl rfl rfl
    (by
      intro j x hx
      obtain ⟨op, t⟩ := x
      obtain ⟨g1, g2⟩ := (goOn_get (rcalls.map Prod.fst) ar.1 hfr (by rw [List.length_map]; exact cr.few) j op t).1 hx
      have hj : j < rcalls.length := by
        have := (List.getElem?_eq_some_iff.1 g1).1
        simpa using this
      rw [Nat.zero_add]
      obtain ⟨y, hy1, hy2⟩ : ∃ y ∈ rcalls, y.1 = op := by
        have := List.mem_of_getElem? g1
        obtain ⟨y, h1, h2⟩ := List.mem_map.1 this
        exact ⟨y, h1, h2⟩
      obtain ⟨o1, o2, -⟩ := hr y hy1
      rw [hy2] at o1 o2
      refine ⟨g1, o1, o2, (cr.fine j _ _ g2).2.1, ?_⟩
      intro n hn
      have he := cr.ends j hj n (by simpa using hn)
      rw [hone (j + 1) hj] at he
      refine (show j < cnt (arStream c) (arOf r.trace) n ↔ j + 1 ≤ cnt (arStream c) (arOf r.trace) n from Iff.rfl).trans (he.symm.trans ?_)
      simp only [List.length_cons, Nat.add_sub_cancel]
      constructor
      · rintro ⟨x', t', h1, h2⟩
        rw [show (locked _ _ _).1[j]? = some (.ok (), t) from g2] at h1
        cases h1
        exact h2
      · intro h
        exact ⟨_, _, g2, h⟩)
  refine ⟨hmono, hW.starts, ?_, ⟨τ, ?_⟩, ?_, ?_⟩
  · intro k x t hk
    obtain ⟨-, hk2⟩ := (bothParts_get sent _ hW.fine k (x, t)).1 hk
    obtain ⟨h1, h2, -⟩ := hb.1 k x t hk2
    rw [Nat.zero_add] at h1 h2
    exact ⟨by simpa [edgesAt] using h2, h1⟩
  · intro k op t x t' hk hx
    obtain ⟨hx1, hx2⟩ := (bothParts_get ar.1 _ hfr k (x, t')).1 hx
    obtain ⟨⟨e0, t0⟩, ht0⟩ : ∃ y, ar.1[k]? = some y := ⟨_, List.getElem?_eq_getElem hx1⟩
    have he0 := hfr k e0 t0 ht0
    subst he0
    have hgo := (goOn_get (rcalls.map Prod.fst) ar.1 hfr (by rw [List.length_map]; exact cr.few) k op t0).2 ⟨by rw [List.getElem?_map, hk]; rfl, ht0⟩
    obtain ⟨a1, a2, a3, -, a5⟩ := hτ k op t0 x t' hgo hx2
    have hkl : k < rcalls.length := (List.getElem?_eq_some_iff.1 hk).1
    have hstart : edgesAt s t < s.rest.length - t0.1 := by
      apply Nat.lt_of_not_le
      intro hle
      have e1 := (cr.ends k hkl (s.rest.length - t0.1) (Nat.sub_le _ _)).1 ⟨_, _, ht0, Nat.le_refl _⟩
      have e2 := cr.starts k (op, t) hk (s.rest.length - t0.1) hle
      rw [hone (k + 1) hkl] at e1
      rw [hone k (by omega)] at e2
      omega
    refine ⟨?_, a2, ?_, ?_⟩
    · intro n hn
      have := a1 n hn
      simp only [List.length_cons, Nat.add_sub_cancel] at this
      unfold edgesAt at hstart ⊢
      omega
    · intro k' op' t2 x' t1 hlt hk' hx' n hn m hm
      obtain ⟨hy1, hy2⟩ := (bothParts_get ar.1 _ hfr k' (x', t1)).1 hx'
      obtain ⟨⟨e3, t3⟩, ht3⟩ : ∃ y, ar.1[k']? = some y := ⟨_, List.getElem?_eq_getElem hy1⟩
      have he3 := hfr k' e3 t3 ht3
      subst he3
      have hgo' := (goOn_get (rcalls.map Prod.fst) ar.1 hfr (by rw [List.length_map]; exact cr.few) k' op' t3).2 ⟨by rw [List.getElem?_map, hk']; rfl, ht3⟩
      obtain ⟨b1, -⟩ := hτ k' op' t3 x' t1 hgo' hy2
      have := a5 k' hlt x' t1 hy2 n hn
      have := b1 m hm
      omega
    · rw [Nat.zero_add] at a3
      have hview : (fun n => AxPipe.mem (St (τ k n))) = fun n => axLast c (fun k _ => wcode k) 0 ((wcalls.map Prod.fst).take (St (τ k n)).written) mem := by
        funext n
        exact hW.mem (τ k n)
      rw [← hview]
      exact a3
  · intro k n hn
    constructor
    · rintro ⟨x, t, hk, ht⟩
      obtain ⟨-, hk2⟩ := (bothParts_get sent _ hW.fine k (x, t)).1 hk
      have hkl : k < (goOn (wcalls.map Prod.fst) sent).length := Nat.lt_of_lt_of_le (List.getElem?_eq_some_iff.1 hk2).1 (locked_length _ _ _)
      have := (hb.2 k hkl n (Nat.zero_le _) (by simpa using hn)).1 ⟨x, t, hk2, by simpa [edgesAt] using ht⟩
      rwa [Nat.zero_add] at this
    · intro h
      have h1 : k < (St n).written := Nat.lt_of_lt_of_le h (responded_le c wcode mem _)
      have hkw : k < wcalls.length := Nat.lt_of_lt_of_le h1 (hW.most n)
      obtain ⟨x0, t0, hs0, -⟩ := (hW.ends k hkw n hn).1 h1
      have hx0 := hW.fine k x0 t0 hs0
      subst hx0
      have hgo := (goOn_get (wcalls.map Prod.fst) sent hW.fine (by rw [List.length_map]; exact hW.few) k _ t0).2 ⟨by rw [List.getElem?_map, List.getElem?_eq_getElem hkw]; rfl, hs0⟩
      obtain ⟨x, t, e1, e2⟩ := (hb.2 k (List.getElem?_eq_some_iff.1 hgo).1 n (Nat.zero_le _) (by simpa using hn)).2 (by rw [Nat.zero_add]; exact h)
      exact ⟨x, t, (bothParts_get sent _ hW.fine k (x, t)).2 ⟨(List.getElem?_eq_some_iff.1 hs0).1, e1⟩, by simpa [edgesAt] using e2⟩
  · intro k n hn
    constructor
    · rintro ⟨x, t, hk, ht⟩
      obtain ⟨-, hk2⟩ := (bothParts_get ar.1 _ hfr k (x, t)).1 hk
      have hkl : k < (goOn (rcalls.map Prod.fst) ar.1).length := Nat.lt_of_lt_of_le (List.getElem?_eq_some_iff.1 hk2).1 (locked_length _ _ _)
      have := (hra k hkl n (Nat.zero_le _) (by simpa using hn)).1 ⟨x, t, hk2, by simpa [edgesAt] using ht⟩
      rwa [Nat.zero_add] at this
    · intro h
      have h1 : k + 1 ≤ cnt (arStream c) (arOf r.trace) n := by
        rw [reads_due c wcode mem]
        have : k < (St n).answered := h
        show k + 1 ≤ (St n).answered + _
        omega
      have hkr : k < rcalls.length := by
        have := hcount.most n
        rw [List.length_map] at this
        omega
      obtain ⟨x0, t0, hs0, -⟩ := (cr.ends k hkr n hn).2 (by rw [hone (k + 1) hkr]; exact h1)
      have hx0 := hfr k x0 t0 hs0
      subst hx0
      have hgo := (goOn_get (rcalls.map Prod.fst) ar.1 hfr (by rw [List.length_map]; exact cr.few) k _ t0).2 ⟨by rw [List.getElem?_map, List.getElem?_eq_getElem hkr]; rfl, hs0⟩
      obtain ⟨x, t, e1, e2⟩ := (hra k (List.getElem?_eq_some_iff.1 hgo).1 n (Nat.zero_le _) (by simpa using hn)).2 (by rw [Nat.zero_add]; exact h)
      exact ⟨x, t, (bothParts_get ar.1 _ hfr k (x, t)).2 ⟨(List.getElem?_eq_some_iff.1 hs0).1, e1⟩, by simpa [edgesAt] using e2⟩

end CocotbBus
