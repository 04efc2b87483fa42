import Verif.Proof.AxiGiveUp
import Verif.Props.AxiMany

/-! # C122, C123: AXI writes that are given up by their callers -/

namespace CocotbBus
open Spec Coro

/-- **C122** (partial: the calls excluded by `AxOpOk`, C55 and C58). A write that is given up is carried out as a whole, as if its caller had waited: all
signals are as if no call was given up, so `J n` of the writes, given up or not, have happened after `n` clock edges, in the order of the calls, and
the reads see just these. -/
theorem C122_whole_partial (c : AxCfg) (hc : Standard c) (wcode : Nat → Nat) (rcode : Nat → Nat → Nat) (mem : Nat → Byte) (wcalls : List (AxOp × Moment × Option Moment))
    (rcalls : List (AxOp × Moment)) (hw : GivenOk c wcalls) (hr : CallsOk c IsRead rcalls) (s : Sim AxIn AxAll) (hs : s.phase ≠ .ro)
    (hidle : s.out.1.1.valid = .zero ∧ s.out.1.2.valid = .zero ∧ s.out.2.valid = .zero) (hg : ∀ i ∈ s.cur :: s.rest, GoodBeat c.dataBytes i ∧ GoodResp i) :
    let r := axGiveUp c wcalls rcalls s
    (AxPipe.fresh mem).Serves c wcode rcode r.trace →
    r.trace = (axMany c (callsOnly wcalls) rcalls s).trace ∧
    ∃ (J : Nat → Nat) (τ : Nat → Nat → Nat), (∀ n m, n ≤ m → J n ≤ J m) ∧
      (∀ (k : Nat) (op : AxOp) (t : Moment) (q : Option Moment), wcalls[k]? = some (op, t, q) → ∀ n ≤ edgesAt s t, J n ≤ k) ∧
      (∀ (k : Nat) (x : Except PyErr Unit) (t : Moment), r.writes[k]? = some (some (x, t)) → k < J (edgesAt s t)) ∧
      (∀ N, AxPipe.Prompt N c wcode mem r.trace → ∀ k B, k < wcalls.length → (∀ x ∈ wcalls.take (k + 1), edgesAt s x.2.1 ≤ B) →
        let n := B + ((wcalls.take (k + 1)).map (fun x => axCost N x.1)).sum
        n ≤ s.rest.length → k < J n) ∧
      (∀ (k : Nat) (op : AxOp) (t : Moment) (x : Except PyErr (List LogicArray)) (t' : Moment), rcalls[k]? = some (op, t) → r.reads[k]? = some (some (x, t')) →
        (∀ n < axBeats op, edgesAt s t < τ k n ∧ τ k n < edgesAt s t') ∧
        ReadGot c (rcode k) op (fun n => axLast c (fun k _ => wcode k) 0 ((wcalls.map Prod.fst).take (J (τ k n))) mem) x) := by
  intro r hserves
  obtain ⟨h1, h2, -, ⟨τ, h4⟩, -, -⟩ := many_core c hc wcode rcode mem (callsOnly wcalls) rcalls hw.1 hr s hs hidle hg hserves
  obtain ⟨g1, -, -⟩ := giveup_core c hc wcode rcode mem wcalls rcalls hw s hs hidle hg hserves
  refine ⟨rfl, _, τ, h1, ?_, ?_, ?_, ?_⟩
  · intro k op t q hk n hn
    exact h2 k op t (by rw [callsOnly, List.getElem?_map, hk]; rfl) n hn
  · intro k x t hk
    obtain ⟨-, -, -, a4, -⟩ := g1 k x t hk
    exact Nat.lt_of_lt_of_le a4 (h1 _ _ (Nat.sub_le _ _))
  · intro N hp k B hk hB n hn
    obtain ⟨h3, -⟩ := many_live c hc wcode rcode mem (callsOnly wcalls) rcalls hw.1 hr s hs hidle N hserves hp
    have he : (((callsOnly wcalls).take (k + 1)).map (fun x => axCost N x.1)).sum = ((wcalls.take (k + 1)).map (fun x => axCost N x.1)).sum := by
      rw [callsOnly, ← List.map_take, List.map_map]
      rfl
    have hB' : ∀ x ∈ (callsOnly wcalls).take (k + 1), edgesAt s x.2 ≤ B := by
      intro x hx
      rw [callsOnly, ← List.map_take] at hx
      obtain ⟨y, hy, rfl⟩ := List.mem_map.1 hx
      exact hB y hy
    have := h3 k B (by simpa [callsOnly] using hk) hB' (by rw [he]; exact hn)
    rw [he] at this
    exact Nat.lt_of_lt_of_le this (responded_le c wcode mem _)
  · intro k op t x t' hk hx
    obtain ⟨a1, -, -, a4⟩ := h4 k op t x t' hk hx
    have he : (callsOnly wcalls).map Prod.fst = wcalls.map Prod.fst := by
      rw [callsOnly, List.map_map]
      rfl
    rw [he] at a4
    exact ⟨a1, a4⟩

/-- C122: giving up writes does not hold up the others. When the memory has given its response to a write that was not given up, the call has returned; so it
returns in time on a memory that does everything within `N` edges. -/
theorem C122_returns_partial (c : AxCfg) (hc : Standard c) (wcode : Nat → Nat) (rcode : Nat → Nat → Nat) (mem : Nat → Byte) (wcalls : List (AxOp × Moment × Option Moment))
    (rcalls : List (AxOp × Moment)) (hw : GivenOk c wcalls) (hr : CallsOk c IsRead rcalls) (s : Sim AxIn AxAll) (hs : s.phase ≠ .ro)
    (hidle : s.out.1.1.valid = .zero ∧ s.out.1.2.valid = .zero ∧ s.out.2.valid = .zero) (hg : ∀ i ∈ s.cur :: s.rest, GoodBeat c.dataBytes i ∧ GoodResp i) :
    let r := axGiveUp c wcalls rcalls s
    (AxPipe.fresh mem).Serves c wcode rcode r.trace → ∀ (k : Nat) (op : AxOp) (t : Moment), wcalls[k]? = some (op, t, none) →
    (∀ n ≤ s.rest.length, k < (AxPipe.run c wcode (AxPipe.fresh mem) (r.trace.take n)).responded →
      ∃ (x : Except PyErr Unit) (t' : Moment), r.writes[k]? = some (some (x, t')) ∧ edgesAt s t' ≤ n) ∧
    (∀ N, AxPipe.Prompt N c wcode mem r.trace → ∀ B, (∀ x ∈ wcalls.take (k + 1), edgesAt s x.2.1 ≤ B) →
      let n := B + ((wcalls.take (k + 1)).map (fun x => axCost N x.1)).sum
      n ≤ s.rest.length → ∃ (x : Except PyErr Unit) (t' : Moment), r.writes[k]? = some (some (x, t')) ∧ edgesAt s t' ≤ n) := by
  intro r hserves k op t hk
  obtain ⟨-, -, g3⟩ := giveup_core c hc wcode rcode mem wcalls rcalls hw s hs hidle hg hserves
  have hfirst : ∀ n ≤ s.rest.length, k < (AxPipe.run c wcode (AxPipe.fresh mem) (r.trace.take n)).responded →
      ∃ (x : Except PyErr Unit) (t' : Moment), r.writes[k]? = some (some (x, t')) ∧ edgesAt s t' ≤ n := by
    intro n hn hlt
    rcases g3 k op t none hk n hn hlt with h | ⟨q', h, -⟩
    · exact h
    · cases h
  refine ⟨hfirst, ?_⟩
  intro N hp B hB n hn
  obtain ⟨h3, -⟩ := many_live c hc wcode rcode mem (callsOnly wcalls) rcalls hw.1 hr s hs hidle N hserves hp
  have he : (((callsOnly wcalls).take (k + 1)).map (fun x => axCost N x.1)).sum = ((wcalls.take (k + 1)).map (fun x => axCost N x.1)).sum := by
    rw [callsOnly, ← List.map_take, List.map_map]
    rfl
  have hB' : ∀ x ∈ (callsOnly wcalls).take (k + 1), edgesAt s x.2 ≤ B := by
    intro x hx
    rw [callsOnly, ← List.map_take] at hx
    obtain ⟨y, hy, rfl⟩ := List.mem_map.1 hx
    exact hB y hy
  have hkl : k < wcalls.length := (List.getElem?_eq_some_iff.1 hk).1
  have := h3 k B (by simpa [callsOnly] using hkl) hB' (by rw [he]; exact hn)
  rw [he] at this
  exact hfirst n hn this

/-- **C123**, what does hold (partial: `AxOpOk`): each call of `write` that returns has taken the response given at the edge at which it returns, to write
number `f k`. This is its own write or an earlier one, and no two calls take the same response. -/
theorem C123_which_partial (c : AxCfg) (hc : Standard c) (wcode : Nat → Nat) (rcode : Nat → Nat → Nat) (mem : Nat → Byte) (wcalls : List (AxOp × Moment × Option Moment))
    (rcalls : List (AxOp × Moment)) (hw : GivenOk c wcalls) (s : Sim AxIn AxAll) (hs : s.phase ≠ .ro)
    (hidle : s.out.1.1.valid = .zero ∧ s.out.1.2.valid = .zero ∧ s.out.2.valid = .zero) (hg : ∀ i ∈ s.cur :: s.rest, GoodBeat c.dataBytes i ∧ GoodResp i) :
    let r := axGiveUp c wcalls rcalls s
    (AxPipe.fresh mem).Serves c wcode rcode r.trace →
    let answered := fun n => (AxPipe.run c wcode (AxPipe.fresh mem) (r.trace.take n)).responded
    ∃ f : Nat → Nat,
      (∀ (k : Nat) (x : Except PyErr Unit) (t : Moment), r.writes[k]? = some (some (x, t)) →
        f k ≤ k ∧ x = outcomeOf (wcode (f k)) ∧ 0 < edgesAt s t ∧ answered (edgesAt s t - 1) = f k ∧ answered (edgesAt s t) = f k + 1) ∧
      (∀ (k k' : Nat) (x x' : Except PyErr Unit) (t t' : Moment), k < k' → r.writes[k]? = some (some (x, t)) → r.writes[k']? = some (some (x', t')) → f k < f k') := by
  intro r hserves answered
  obtain ⟨g1, g2, -⟩ := giveup_core c hc wcode rcode mem wcalls rcalls hw s hs hidle hg hserves
  have hmono : ∀ n m, n ≤ m → answered n ≤ answered m := by
    intro n m h
    induction m with
    | zero => rw [Nat.le_zero.1 h]; exact Nat.le_refl _
    | succ m ih =>
      by_cases hm : n ≤ m
      · refine Nat.le_trans (ih hm) ?_
        cases hq : r.trace[m]? with
        | some q =>
          show (AxPipe.run _ _ _ _).responded ≤ (AxPipe.run _ _ _ _).responded
          rw [take_snoc _ m q hq, pipe_run_snoc, step_responded]
          split <;> omega
        | none =>
          have hl : r.trace.length ≤ m := List.getElem?_eq_none_iff.1 hq
          show (AxPipe.run _ _ _ _).responded ≤ (AxPipe.run _ _ _ _).responded
          rw [List.take_of_length_le hl, List.take_of_length_le (by omega)]
          exact Nat.le_refl _
      · rw [show n = m + 1 by omega]
        exact Nat.le_refl _
  let f : Nat → Nat := fun k => match r.writes[k]? with
    | some (some (_, t)) => answered (edgesAt s t - 1)
    | _ => 0
  have hf : ∀ (k : Nat) (x : Except PyErr Unit) (t : Moment), r.writes[k]? = some (some (x, t)) → f k = answered (edgesAt s t - 1) := by
    intro k x t hk
    show (match r.writes[k]? with
      | some (some (_, t)) => answered (edgesAt s t - 1)
      | _ => 0) = _
    rw [hk]
  refine ⟨f, ?_, ?_⟩
  · intro k x t hk
    obtain ⟨a1, a2, a3, -, a5⟩ := g1 k x t hk
    rw [hf k x t hk]
    exact ⟨a2, a5, a1, rfl, a3⟩
  · intro k k' x x' t t' hlt hk hk'
    obtain ⟨a1, a2, a3, -⟩ := g1 k x t hk
    have h1 := g2 k k' x x' t t' hlt hk hk'
    have h2 := hmono (edgesAt s t) (edgesAt s t' - 1) (by omega)
    rw [hf k x t hk, hf k' x' t' hk']
    have h3 : answered (edgesAt s t) = answered (edgesAt s t - 1) + 1 := a3
    omega

/-- C123, what does hold: a call of `write` gets the response to its own write if the memory had answered all earlier writes before it gave the response
taken by this call, given up or not; in particular if they had been answered when it was called. It also does if all earlier calls have
returned something. -/
theorem C123_own_partial (c : AxCfg) (hc : Standard c) (wcode : Nat → Nat) (rcode : Nat → Nat → Nat) (mem : Nat → Byte) (wcalls : List (AxOp × Moment × Option Moment))
    (rcalls : List (AxOp × Moment)) (hw : GivenOk c wcalls) (s : Sim AxIn AxAll) (hs : s.phase ≠ .ro)
    (hidle : s.out.1.1.valid = .zero ∧ s.out.1.2.valid = .zero ∧ s.out.2.valid = .zero) (hg : ∀ i ∈ s.cur :: s.rest, GoodBeat c.dataBytes i ∧ GoodResp i) :
    let r := axGiveUp c wcalls rcalls s
    (AxPipe.fresh mem).Serves c wcode rcode r.trace →
    let answered := fun n => (AxPipe.run c wcode (AxPipe.fresh mem) (r.trace.take n)).responded
    ∀ (k : Nat) (x : Except PyErr Unit) (t : Moment), r.writes[k]? = some (some (x, t)) →
      (k ≤ answered (edgesAt s t - 1) ∨ ∀ j < k, ∃ (y : Except PyErr Unit) (t' : Moment), r.writes[j]? = some (some (y, t'))) → x = outcomeOf (wcode k) := by
  intro r hserves answered k x t hk hcase
  obtain ⟨f, h1, h2⟩ := C123_which_partial c hc wcode rcode mem wcalls rcalls hw s hs hidle hg hserves
  obtain ⟨a1, a2, -, a4, -⟩ := h1 k x t hk
  have hfk : f k = k := by
    rcases hcase with h | h
    · have : answered (edgesAt s t - 1) = f k := a4
      omega
    · have hup : ∀ j, j ≤ k → j ≤ f j := by
        intro j
        induction j with
        | zero => intro _; exact Nat.zero_le _
        | succ j ih =>
          intro hj
          obtain ⟨y, t', hy⟩ := h j (by omega)
          obtain ⟨y', t'', hy'⟩ : ∃ (y : Except PyErr Unit) (t' : Moment), r.writes[j + 1]? = some (some (y, t')) := by
            by_cases hjk : j + 1 = k
            · exact ⟨x, t, by rw [hjk]; exact hk⟩
            · exact h (j + 1) (by omega)
          have := h2 j (j + 1) y y' t' t'' (by omega) hy hy'
          have := ih (by omega)
          omega
      have := hup k (Nat.le_refl _)
      omega
  rw [a2, hfk]

attribute [local irreducible] AxPipe.Serves

-- a write is given up while its data is sent, and another one is called later, when its response has been given: the memory has both values
def wGive : List (AxOp × Moment × Option Moment) := [(.write 0x100 [0x44332211, 0x88776655] none .incr [none] 0 0 true, (14, .mid), some (12, .mid)),
  (.write 0x104 [0xAABBCCDD] none .incr [none] 0 0 true, (9, .edge), none)]
def rGive : List (AxOp × Moment) := [(.read 0x100 2 none .incr true, (6, .edge))]
def sGive : Sim AxIn AxAll := startAx [{}, {}, readyIn, readyIn, bIn, {}, readyIn, readyIn, bIn, readyIn, rIn 0x44332211 0 .zero, rIn 0xAABBCCDD 0 .one, {}, {}, {}]

theorem wGive_ok : GivenOk cfgAx wGive := by
  have l1 : Legal cfgAx 0x100 2 none .incr 4 := (axiChecks_ok cfgAx 0x100 2 none .incr 4 2 rfl (by decide)).1 (by decide)
  have l2 : Legal cfgAx 0x104 1 none .incr 4 := (axiChecks_ok cfgAx 0x104 1 none .incr 4 2 rfl (by decide)).1 (by decide)
  refine ⟨?_, ?_⟩
  · simp only [CallsOk, callsOnly, wGive, List.map_cons, List.map_nil, List.forall_mem_cons]
    exact ⟨⟨⟨rfl, by decide, by decide, by decide, l1, fun h => by cases h⟩, trivial, by decide⟩, ⟨⟨rfl, by decide, by decide, by decide, l2, fun h => by cases h⟩, trivial, by decide⟩,
      fun _ h => by cases h⟩
  · simp only [wGive, List.forall_mem_cons]
    refine ⟨?_, ?_, fun _ h => by cases h⟩
    · intro q hq
      cases hq
      decide
    · intro q hq
      cases hq

example : let r := axGiveUp cfgAx wGive rGive sGive
    GivenOk cfgAx wGive ∧ CallsOk cfgAx IsRead rGive ∧ sGive.phase ≠ .ro ∧ (sGive.out.1.1.valid = .zero ∧ sGive.out.1.2.valid = .zero ∧ sGive.out.2.valid = .zero) ∧
    (∀ i ∈ sGive.cur :: sGive.rest, GoodBeat 4 i ∧ GoodResp i) ∧ (AxPipe.fresh (fun _ => 0)).Serves cfgAx (fun _ => 0) (fun _ _ => 0) r.trace ∧
    r.writes = [none, some (.ok (), (5, .edge))] ∧ r.reads = [some (.ok [natToBits 32 0x44332211, natToBits 32 0xAABBCCDD], (2, .edge))] ∧
    1 ≤ (AxPipe.run cfgAx (fun _ => 0) (AxPipe.fresh (fun _ => 0)) (r.trace.take (edgesAt sGive (5, .edge) - 1))).responded := by
  intro r
  have h1 : (sGive.cur :: sGive.rest).all (goodB 4) = true := by decide +kernel
  have h2 : AxPipe.servesB cfgAx (fun _ => 0) (fun _ _ => 0) (AxPipe.fresh (fun _ => 0)) r.trace = true := by decide +kernel
  have l1 : Legal cfgAx 0x100 2 none .incr 4 := (axiChecks_ok cfgAx 0x100 2 none .incr 4 2 rfl (by decide)).1 (by decide)
  refine ⟨wGive_ok, ?_, by decide, by decide, fun i hi => good_of_goodB (List.all_eq_true.1 h1 i hi),
    AxPipe.serves_of_servesB cfgAx (fun _ => 0) (fun _ _ => 0) r.trace (AxPipe.fresh (fun _ => 0)) h2, by decide +kernel, by decide +kernel, by decide +kernel⟩
  simp only [CallsOk, rGive, List.forall_mem_cons]
  exact ⟨⟨⟨rfl, by decide, l1, fun h => by cases h⟩, trivial, by decide⟩, fun _ h => by cases h⟩

-- the same calls on a memory that does everything within four edges, with enough of them
def sGiveLong : Sim AxIn AxAll := startAx (sGive.cur :: sGive.rest ++ List.replicate 30 ({} : AxIn))
def wGiveLong : List (AxOp × Moment × Option Moment) := wGive.map (fun x => (x.1, (x.2.1.1 + 30, x.2.1.2), x.2.2.map (fun q => (q.1 + 30, q.2))))
def rGiveLong : List (AxOp × Moment) := rGive.map (fun x => (x.1, (x.2.1 + 30, x.2.2)))

example : let r := axGiveUp cfgAx wGiveLong rGiveLong sGiveLong
    (∀ i ∈ sGiveLong.cur :: sGiveLong.rest, GoodBeat 4 i ∧ GoodResp i) ∧
    (AxPipe.fresh (fun _ => 0)).Serves cfgAx (fun _ => 0) (fun _ _ => 0) r.trace ∧ AxPipe.Prompt 4 cfgAx (fun _ => 0) (fun _ => 0) r.trace ∧
    (∀ x ∈ wGiveLong.take 2, edgesAt sGiveLong x.2.1 ≤ 5) ∧ 5 + ((wGiveLong.take 2).map (fun x => axCost 4 x.1)).sum ≤ sGiveLong.rest.length ∧
    r.writes = [none, some (.ok (), (35, .edge))] := by
  intro r
  have h1 : (sGiveLong.cur :: sGiveLong.rest).all (goodB 4) = true := by decide +kernel
  have h2 : AxPipe.servesB cfgAx (fun _ => 0) (fun _ _ => 0) (AxPipe.fresh (fun _ => 0)) r.trace = true := by decide +kernel
  have h3 : AxPipe.promptB 4 cfgAx (fun _ => 0) (fun _ => 0) r.trace = true := by decide +kernel
  exact ⟨fun i hi => good_of_goodB (List.all_eq_true.1 h1 i hi), AxPipe.serves_of_servesB cfgAx (fun _ => 0) (fun _ _ => 0) r.trace (AxPipe.fresh (fun _ => 0)) h2,
    AxPipe.prompt_of_promptB 4 cfgAx (fun _ => 0) (fun _ => 0) r.trace h3, by decide +kernel, by decide +kernel, by decide +kernel⟩

/-- C122 is false of all legal calls, as C106 is: with a data latency the second value of a burst is not the one that was to be written (C55), given up
or not. -/
theorem C122_violated :
    let wcalls : List (AxOp × Moment × Option Moment) := [(.write 0x100 [0x44332211, 0x88776655] none .incr [none] 0 1 true, (12, .mid), some (11, .mid))]
    let rcalls : List (AxOp × Moment) := [(.read 0x100 2 none .incr true, (6, .edge))]
    let s := startAx [readyIn, readyIn, readyIn, readyIn, readyIn, bIn, {}, readyIn, {}, rIn 0x44332211 0 .zero, rIn 0x44332211 0 .one, {}, {}]
    let r := axGiveUp cfgAx wcalls rcalls s
    (∀ i ∈ s.cur :: s.rest, GoodBeat 4 i ∧ GoodResp i) ∧ Legal cfgAx 0x100 2 none .incr 4 ∧
    (AxPipe.fresh (fun _ => 0)).Serves cfgAx (fun _ => 0) (fun _ _ => 0) r.trace ∧ r.writes = [none] ∧
    r.reads = [some (.ok [natToBits 32 0x44332211, natToBits 32 0x44332211], (1, .edge))] ∧
    axReturns cfgAx (.read 0x100 2 none .incr true) (axFinal cfgAx (wcalls.map Prod.fst) (fun _ => 0)) = [natToBits 32 0x44332211, natToBits 32 0x88776655] := by
  intro wcalls rcalls s r
  have h1 : (s.cur :: s.rest).all (goodB 4) = true := by decide +kernel
  have h2 : AxPipe.servesB cfgAx (fun _ => 0) (fun _ _ => 0) (AxPipe.fresh (fun _ => 0)) r.trace = true := by decide +kernel
  exact ⟨fun i hi => good_of_goodB (List.all_eq_true.1 h1 i hi), (axiChecks_ok cfgAx 0x100 2 none .incr 4 2 rfl (by decide)).1 (by decide),
    AxPipe.serves_of_servesB cfgAx (fun _ => 0) (fun _ _ => 0) r.trace (AxPipe.fresh (fun _ => 0)) h2, by decide +kernel, by decide +kernel, by decide +kernel⟩

-- the response to the first write, an error, comes when the second one is waiting
def sLate : Sim AxIn AxAll := startAx [{}, {}, readyIn, readyIn, {}, {}, readyIn, readyIn, { bIn with bresp := natToBits 2 2 }, bIn, {}, {}, {}, {}, {}]
-- the other way round
def sLate' : Sim AxIn AxAll := startAx [{}, {}, readyIn, readyIn, {}, {}, readyIn, readyIn, bIn, { bIn with bresp := natToBits 2 2 }, {}, {}, {}, {}, {}]

/-- **C123** is false: a write is given up, and a later write that succeeds raises the error which is the response to the first one; or the first one succeeds,
and the later one returns although it was refused. -/
theorem C123_violated :
    let bad := fun j k => if k = j then 2 else 0
    let r := axGiveUp cfgAx wGive [] sLate
    let r' := axGiveUp cfgAx wGive [] sLate'
    GivenOk cfgAx wGive ∧ (∀ i ∈ sLate.cur :: sLate.rest, GoodBeat 4 i ∧ GoodResp i) ∧ (∀ i ∈ sLate'.cur :: sLate'.rest, GoodBeat 4 i ∧ GoodResp i) ∧
    (AxPipe.fresh (fun _ => 0)).Serves cfgAx (bad 0) (fun _ _ => 0) r.trace ∧ (AxPipe.fresh (fun _ => 0)).Serves cfgAx (bad 1) (fun _ _ => 0) r'.trace ∧
    r.writes = [none, some (.error (.axiProtocol 2), (5, .edge))] ∧ bad 0 1 = 0 ∧
    r'.writes = [none, some (.ok (), (5, .edge))] ∧ bad 1 1 = 2 := by
  intro bad r r'
  have h1 : (sLate.cur :: sLate.rest).all (goodB 4) = true := by decide +kernel
  have h1' : (sLate'.cur :: sLate'.rest).all (goodB 4) = true := by decide +kernel
  have h2 : AxPipe.servesB cfgAx (bad 0) (fun _ _ => 0) (AxPipe.fresh (fun _ => 0)) r.trace = true := by decide +kernel
  have h2' : AxPipe.servesB cfgAx (bad 1) (fun _ _ => 0) (AxPipe.fresh (fun _ => 0)) r'.trace = true := by decide +kernel
  exact ⟨wGive_ok, fun i hi => good_of_goodB (List.all_eq_true.1 h1 i hi), fun i hi => good_of_goodB (List.all_eq_true.1 h1' i hi),
    AxPipe.serves_of_servesB cfgAx (bad 0) (fun _ _ => 0) r.trace (AxPipe.fresh (fun _ => 0)) h2,
    AxPipe.serves_of_servesB cfgAx (bad 1) (fun _ _ => 0) r'.trace (AxPipe.fresh (fun _ => 0)) h2', by decide +kernel, rfl, by decide +kernel, rfl⟩

-- an illegal call (over a 4kB boundary) raises at once, whether it would be given up later or not, and holds nobody up
example : let bad : AxOp := .write 0xFFC [1, 2] none .incr [none] 0 0 true
    (axGiveUp cfgAx [(bad, (12, .mid), none), (bad, (12, .mid), some (10, .mid)), (.write 0x100 [1] none .incr [none] 0 0 true, (12, .mid), none)] [] sGive).writes =
      [some (.error .valueError, (12, .mid)), some (.error .valueError, (12, .mid)), some (.ok (), (9, .edge))] := by decide +kernel

end CocotbBus
