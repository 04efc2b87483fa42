import Verif.Proof.AxiManyLive
import Verif.Props.AxiUse

/-! # C106: any number of tasks use one AXI4 master and a memory with several outstanding requests -/

namespace CocotbBus
open Spec Coro

/-- **C106** (partial: WRAP bursts shorter than the bus, C58, and a data latency with several values, C55, are excluded by `AxOpOk`). Calls of `write` and
of `read` are made at any moments, also while earlier ones are waiting, and the memory takes requests before it has answered earlier ones. Then the
calls behave as if each write happened at one moment and each beat of a read looked at the memory at one moment: `J n` writes have happened after `n`
clock edges, in the order of the calls and each of them between its call and its return; beat `n` of read `k` looks at the memory after `τ k n` clock
edges, between the call and the return of the read, and in order. Every call gets the response given to it and no other one. -/
theorem C106_many_partial (c : AxCfg) (hc : Standard c) (wcode : Nat → Nat) (rcode : Nat → Nat → Nat) (mem : Nat → Byte) (wcalls rcalls : List (AxOp × Moment))
    (hw : CallsOk c IsWrite wcalls) (hr : CallsOk c IsRead rcalls) (s : Sim AxIn AxAll) (hs : s.phase ≠ .ro)
    (hidle : s.out.1.1.valid = .zero ∧ s.out.1.2.valid = .zero ∧ s.out.2.valid = .zero) (hg : ∀ i ∈ s.cur :: s.rest, GoodBeat c.dataBytes i ∧ GoodResp i) :
    let r := axMany c wcalls rcalls s
    (AxPipe.fresh mem).Serves c wcode rcode r.trace →
    ∃ (J : Nat → Nat) (τ : Nat → Nat → Nat), (∀ n m, n ≤ m → J n ≤ J m) ∧
      (∀ (k : Nat) (op : AxOp) (t : Moment), wcalls[k]? = some (op, t) → ∀ n ≤ edgesAt s t, J n ≤ k) ∧
      (∀ (k : Nat) (x : Except PyErr Unit) (t : Moment), r.writes[k]? = some (some (x, t)) →
        k < J (edgesAt s t) ∧ x = if wcode k = 0 then .ok () else .error (.axiProtocol (wcode k))) ∧
      (∀ (k : Nat) (op : AxOp) (t : Moment) (x : Except PyErr (List LogicArray)) (t' : Moment), rcalls[k]? = some (op, t) → r.reads[k]? = some (some (x, t')) →
        (∀ n < axBeats op, edgesAt s t < τ k n ∧ τ k n < edgesAt s t') ∧ (∀ n m, n < m → m < axBeats op → τ k n < τ k m) ∧
        (∀ (k' : Nat) (op' : AxOp) (t0 : Moment) (x' : Except PyErr (List LogicArray)) (t1 : Moment), k' < k → rcalls[k']? = some (op', t0) →
          r.reads[k']? = some (some (x', t1)) → ∀ n < axBeats op, ∀ m < axBeats op', τ k' m < τ k n) ∧
        ReadGot c (rcode k) op (fun n => axLast c (fun k _ => wcode k) 0 ((wcalls.map Prod.fst).take (J (τ k n))) mem) x) := by
  intro r hserves
  obtain ⟨h1, h2, h3, ⟨τ, h4⟩, -, -⟩ := many_core c hc wcode rcode mem wcalls rcalls hw hr s hs hidle hg hserves
  exact ⟨_, τ, h1, h2, h3, h4⟩

/-- C106: a call of `write` returns as soon as the memory has given its response and not before, and a call of `read` as soon as the last beat of its
answer has been sent: the calls that have returned after `n` clock edges are as many as have been answered by then, in the order of the calls. -/
theorem C106_answers_partial (c : AxCfg) (hc : Standard c) (wcode : Nat → Nat) (rcode : Nat → Nat → Nat) (mem : Nat → Byte) (wcalls rcalls : List (AxOp × Moment))
    (hw : CallsOk c IsWrite wcalls) (hr : CallsOk c IsRead rcalls) (s : Sim AxIn AxAll) (hs : s.phase ≠ .ro)
    (hidle : s.out.1.1.valid = .zero ∧ s.out.1.2.valid = .zero ∧ s.out.2.valid = .zero) (hg : ∀ i ∈ s.cur :: s.rest, GoodBeat c.dataBytes i ∧ GoodResp i) :
    let r := axMany c wcalls rcalls s
    (AxPipe.fresh mem).Serves c wcode rcode r.trace → ∀ k n, n ≤ s.rest.length →
      let m := AxPipe.run c wcode (AxPipe.fresh mem) (r.trace.take n)
      ((∃ (x : Except PyErr Unit) (t : Moment), r.writes[k]? = some (some (x, t)) ∧ edgesAt s t ≤ n) ↔ k < m.responded) ∧
      ((∃ (x : Except PyErr (List LogicArray)) (t : Moment), r.reads[k]? = some (some (x, t)) ∧ edgesAt s t ≤ n) ↔ k < m.answered) := by
  intro r hserves k n hn
  obtain ⟨-, -, -, -, h1, h2⟩ := many_core c hc wcode rcode mem wcalls rcalls hw hr s hs hidle hg hserves
  exact ⟨h1 k n hn, h2 k n hn⟩

/-- C106: every call returns if the memory does everything that is due within `N` clock edges and there are enough of them. If the calls up to number
`k` of a kind have been made after `B` edges, call number `k` has returned or raised its protocol error after as many more edges as these calls
need one after the other (`axCost`), whatever the calls of the other kind do. -/
theorem C106_returns_partial (c : AxCfg) (hc : Standard c) (wcode : Nat → Nat) (rcode : Nat → Nat → Nat) (mem : Nat → Byte) (wcalls rcalls : List (AxOp × Moment))
    (hw : CallsOk c IsWrite wcalls) (hr : CallsOk c IsRead rcalls) (s : Sim AxIn AxAll) (hs : s.phase ≠ .ro)
    (hidle : s.out.1.1.valid = .zero ∧ s.out.1.2.valid = .zero ∧ s.out.2.valid = .zero) (hg : ∀ i ∈ s.cur :: s.rest, GoodBeat c.dataBytes i ∧ GoodResp i) (N : Nat) :
    let r := axMany c wcalls rcalls s
    (AxPipe.fresh mem).Serves c wcode rcode r.trace → AxPipe.Prompt N c wcode mem r.trace →
    (∀ k B, k < wcalls.length → (∀ x ∈ wcalls.take (k + 1), edgesAt s x.2 ≤ B) →
      let n := B + ((wcalls.take (k + 1)).map (fun x => axCost N x.1)).sum
      n ≤ s.rest.length → ∃ (x : Except PyErr Unit) (t : Moment), r.writes[k]? = some (some (x, t)) ∧ edgesAt s t ≤ n) ∧
    (∀ k B, k < rcalls.length → (∀ x ∈ rcalls.take (k + 1), edgesAt s x.2 ≤ B) →
      let n := B + ((rcalls.take (k + 1)).map (fun x => axCost N x.1)).sum
      n ≤ s.rest.length → ∃ (x : Except PyErr (List LogicArray)) (t : Moment), r.reads[k]? = some (some (x, t)) ∧ edgesAt s t ≤ n) := by
  intro r hserves hp
  obtain ⟨-, -, -, -, h1, h2⟩ := many_core c hc wcode rcode mem wcalls rcalls hw hr s hs hidle hg hserves
  obtain ⟨h3, h4⟩ := many_live c hc wcode rcode mem wcalls rcalls hw hr s hs hidle N hserves hp
  exact ⟨fun k B hk hB hn => (h1 k _ hn).2 (h3 k B hk hB hn), fun k B hk hB hn => (h2 k _ hn).2 (h4 k B hk hB hn)⟩

/-- a test of `AxPipe.Right` -/
def AxPipe.rightB (c : AxCfg) (wcode : Nat → Nat) (rcode : Nat → Nat → Nat) (m : AxPipe) (i : AxIn) : Bool :=
  (!bFire i || !decide (m.responded < m.written) || respB i.bresp (wcode m.responded)) &&
  (!rFire i ||
    match m.ar with
    | [] => true
    | p :: _ =>
      let (a, size, burst, len) := p.decode c.dataBytes
      i.rdata.length == 8 * c.dataBytes && respB i.rresp (rcode m.answered m.beats) && (rLast c i == decide (m.beats + 1 = len)) &&
      (rcode m.answered m.beats != 0 || (List.range size).all (fun j =>
        let b := beatAddr size burst a len m.beats + j
        !decide (b < alignedAddr size (beatAddr size burst a len m.beats) + size) || lane i.rdata (b % c.dataBytes) == byteBits (m.mem b))))

theorem AxPipe.right_of_rightB {c : AxCfg} {wcode : Nat → Nat} {rcode : Nat → Nat → Nat} {m : AxPipe} {i : AxIn} (h : AxPipe.rightB c wcode rcode m i = true) :
    m.Right c wcode rcode i := by
  unfold AxPipe.rightB at h
  rw [Bool.and_eq_true, Bool.or_eq_true, Bool.or_eq_true, Bool.or_eq_true] at h
  obtain ⟨h1, h2⟩ := h
  refine ⟨?_, ?_⟩
  · intro hb hr
    rcases h1 with (h1 | h1) | h1
    · rw [hb] at h1; cases h1
    · rw [decide_eq_true hr] at h1; cases h1
    · exact resp_of_respB h1
  · intro hr p l hm
    rcases h2 with h2 | h6
    · rw [hr] at h2; cases h2
    · rw [hm] at h6
      simp only [Bool.and_eq_true, beq_iff_eq, List.all_eq_true, List.mem_range, Bool.or_eq_true, Bool.not_eq_true', decide_eq_false_iff_not, bne_iff_ne] at h6 ⊢
      generalize p.decode c.dataBytes = d at h6
      obtain ⟨a, size, burst, len⟩ := d
      simp only at h6
      obtain ⟨⟨⟨h5, h7⟩, h8⟩, h9⟩ := h6
      refine ⟨h5, resp_of_respB h7, by rw [h8]; simp, ?_⟩
      intro h0 b hb
      have hb1 : beatAddr size burst a len m.beats ≤ b := hb.1
      have hb2 : b < alignedAddr size (beatAddr size burst a len m.beats) + size := hb.2
      have hsz : alignedAddr size (beatAddr size burst a len m.beats) ≤ beatAddr size burst a len m.beats := Nat.div_mul_le_self _ _
      rcases h9 with h9 | h9
      · exact absurd h0 h9
      have := h9 (b - beatAddr size burst a len m.beats) (by omega)
      rw [Nat.add_sub_cancel' hb1] at this
      rcases this with h | h
      · exact absurd hb2 h
      · exact h

def AxPipe.servesB (c : AxCfg) (wcode : Nat → Nat) (rcode : Nat → Nat → Nat) : AxPipe → List (AxAll × AxIn) → Bool
  | _, [] => true
  | m, q :: t => AxPipe.rightB c wcode rcode m q.2 && AxPipe.servesB c wcode rcode (m.step c wcode q) t

theorem AxPipe.serves_of_servesB (c : AxCfg) (wcode : Nat → Nat) (rcode : Nat → Nat → Nat) (t : List (AxAll × AxIn)) :
    ∀ m : AxPipe, AxPipe.servesB c wcode rcode m t = true → AxPipe.Serves c wcode rcode m t := by
  induction t with
  | nil => intro m _; trivial
  | cons q t ih =>
    intro m h
    rw [AxPipe.servesB, Bool.and_eq_true] at h
    exact ⟨AxPipe.right_of_rightB h.1, ih _ h.2⟩

/-- a test of `LessThan` -/
def lessThanB {α : Type} (N : Nat) (T : List α) (S : Nat → α → Bool) : Bool :=
  (List.range (T.length + 1 - N)).all (fun n => (List.range N).any (fun j => match T[n + j]? with
    | some q => !S (n + j) q
    | none => false))

theorem lessThan_of_B {α : Type} (N : Nat) (T : List α) (S : Nat → α → Bool) (S' : Nat → α → Prop) (hS : ∀ n q, S' n q → S n q = true) (h : lessThanB N T S = true) :
    LessThan N T S' := by
  intro n hn
  have h1 := List.all_eq_true.1 h n (List.mem_range.2 (by omega))
  obtain ⟨j, hj, h2⟩ := List.any_eq_true.1 h1
  split at h2
  · next q hq => exact ⟨j, List.mem_range.1 hj, q, hq, fun h => by rw [hS _ _ h] at h2; cases h2⟩
  · cases h2

def AxPipe.promptB (N : Nat) (c : AxCfg) (wcode : Nat → Nat) (mem : Nat → Byte) (T : List (AxAll × AxIn)) : Bool :=
  lessThanB N T (fun _ q => (awStream c).valid q.1.1.1 && !(awStream c).ready q.2) && lessThanB N T (fun _ q => (wStream c).valid q.1.1.2 && !(wStream c).ready q.2) &&
  lessThanB N T (fun _ q => (arStream c).valid q.1.2 && !(arStream c).ready q.2) &&
  lessThanB N T (fun n q => let m := AxPipe.run c wcode (AxPipe.fresh mem) (T.take n); decide (m.responded < m.written) && !bFire q.2) &&
  lessThanB N T (fun n q => !(AxPipe.run c wcode (AxPipe.fresh mem) (T.take n)).ar.isEmpty && !rFire q.2)

theorem AxPipe.prompt_of_promptB (N : Nat) (c : AxCfg) (wcode : Nat → Nat) (mem : Nat → Byte) (T : List (AxAll × AxIn)) (h : AxPipe.promptB N c wcode mem T = true) :
    AxPipe.Prompt N c wcode mem T := by
  unfold AxPipe.promptB at h
  simp only [Bool.and_eq_true] at h
  obtain ⟨⟨⟨⟨h1, h2⟩, h3⟩, h4⟩, h5⟩ := h
  exact ⟨lessThan_of_B N T _ _ (fun _ _ h => by rw [h.1, h.2]; rfl) h1, lessThan_of_B N T _ _ (fun _ _ h => by rw [h.1, h.2]; rfl) h2,
    lessThan_of_B N T _ _ (fun _ _ h => by rw [h.1, h.2]; rfl) h3,
    lessThan_of_B N T _ _ (fun _ _ h => by simp only [h.2, Bool.not_false, Bool.and_true]; exact decide_eq_true h.1) h4,
    lessThan_of_B N T _ _ (fun _ _ h => by simpa [h.2] using h.1) h5⟩

attribute [local irreducible] AxPipe.Serves

-- two writes and two reads: the second write is called while the first one is sending its data, and the second read while the first one waits for
-- its answer; both addresses of each kind are accepted before anything is answered, and the first read sees the second write with its second beat only
def sMany : Sim AxIn AxAll := startAx [{}, readyIn, readyIn, readyIn, { readyIn with rvalid := .one, rdata := natToBits 32 0x44332211 },
  rIn 0xAABBCCDD 0 .one, { bIn with rvalid := .one, rdata := natToBits 32 0xAABBCCDD, rlast := .one }, bIn, {}, {}, {}]
def wMany : List (AxOp × Moment) := [(.write 0x100 [0x44332211, 0x88776655] none .incr [none] 0 0 true, (10, .mid)),
  (.write 0x104 [0xAABBCCDD] none .incr [none] 0 0 true, (9, .edge))]
def rMany : List (AxOp × Moment) := [(.read 0x100 2 none .incr true, (10, .mid)), (.read 0x104 1 none .incr true, (8, .mid))]

example : let r := axMany cfgAx wMany rMany sMany
    CallsOk cfgAx IsWrite wMany ∧ CallsOk cfgAx IsRead rMany ∧ sMany.phase ≠ .ro ∧ (sMany.out.1.1.valid = .zero ∧ sMany.out.1.2.valid = .zero ∧ sMany.out.2.valid = .zero) ∧
    (∀ i ∈ sMany.cur :: sMany.rest, GoodBeat 4 i ∧ GoodResp i) ∧ (AxPipe.fresh (fun _ => 0)).Serves cfgAx (fun _ => 0) (fun _ _ => 0) r.trace ∧
    r.writes = [some (.ok (), (3, .edge)), some (.ok (), (2, .edge))] ∧
    r.reads = [some (.ok [natToBits 32 0x44332211, natToBits 32 0xAABBCCDD], (4, .edge)), some (.ok [natToBits 32 0xAABBCCDD], (3, .edge))] := by
  intro r
  have h1 : (sMany.cur :: sMany.rest).all (goodB 4) = true := by decide +kernel
  have h2 : AxPipe.servesB cfgAx (fun _ => 0) (fun _ _ => 0) (AxPipe.fresh (fun _ => 0)) r.trace = true := by decide +kernel
  have l1 : Legal cfgAx 0x100 2 none .incr 4 := (axiChecks_ok cfgAx 0x100 2 none .incr 4 2 rfl (by decide)).1 (by decide)
  have l2 : Legal cfgAx 0x104 1 none .incr 4 := (axiChecks_ok cfgAx 0x104 1 none .incr 4 2 rfl (by decide)).1 (by decide)
  refine ⟨?_, ?_, by decide, by decide, fun i hi => good_of_goodB (List.all_eq_true.1 h1 i hi),
    AxPipe.serves_of_servesB cfgAx (fun _ => 0) (fun _ _ => 0) r.trace (AxPipe.fresh (fun _ => 0)) h2, by decide +kernel, by decide +kernel⟩
  · simp only [CallsOk, wMany, List.forall_mem_cons]
    exact ⟨⟨⟨rfl, by decide, by decide, by decide, l1, fun h => by cases h⟩, trivial, by decide⟩, ⟨⟨rfl, by decide, by decide, by decide, l2, fun h => by cases h⟩, trivial, by decide⟩,
      fun _ h => by cases h⟩
  · simp only [CallsOk, rMany, List.forall_mem_cons]
    exact ⟨⟨⟨rfl, by decide, l1, fun h => by cases h⟩, trivial, by decide⟩, ⟨⟨rfl, by decide, l2, fun h => by cases h⟩, trivial, by decide⟩, fun _ h => by cases h⟩

-- the same calls and a memory that does everything within four edges; after them there are enough edges for all of the calls
def sLong : Sim AxIn AxAll := startAx (sMany.cur :: sMany.rest ++ List.replicate 30 ({} : AxIn))
def wLong : List (AxOp × Moment) := wMany.map (fun x => (x.1, (x.2.1 + 30, x.2.2)))
def rLong : List (AxOp × Moment) := rMany.map (fun x => (x.1, (x.2.1 + 30, x.2.2)))

example : let r := axMany cfgAx wLong rLong sLong
    (∀ i ∈ sLong.cur :: sLong.rest, GoodBeat 4 i ∧ GoodResp i) ∧
    (AxPipe.fresh (fun _ => 0)).Serves cfgAx (fun _ => 0) (fun _ _ => 0) r.trace ∧ AxPipe.Prompt 4 cfgAx (fun _ => 0) (fun _ => 0) r.trace ∧
    (∀ x ∈ wLong.take 2, edgesAt sLong x.2 ≤ 1) ∧ 1 + ((wLong.take 2).map (fun x => axCost 4 x.1)).sum ≤ sLong.rest.length ∧
    (∀ x ∈ rLong.take 2, edgesAt sLong x.2 ≤ 2) ∧ 2 + ((rLong.take 2).map (fun x => axCost 4 x.1)).sum ≤ sLong.rest.length ∧
    r.writes = [some (.ok (), (33, .edge)), some (.ok (), (32, .edge))] := by
  intro r
  have h1 : (sLong.cur :: sLong.rest).all (goodB 4) = true := by decide +kernel
  have h2 : AxPipe.servesB cfgAx (fun _ => 0) (fun _ _ => 0) (AxPipe.fresh (fun _ => 0)) r.trace = true := by decide +kernel
  have h3 : AxPipe.promptB 4 cfgAx (fun _ => 0) (fun _ => 0) r.trace = true := by decide +kernel
  exact ⟨fun i hi => good_of_goodB (List.all_eq_true.1 h1 i hi), AxPipe.serves_of_servesB cfgAx (fun _ => 0) (fun _ _ => 0) r.trace (AxPipe.fresh (fun _ => 0)) h2,
    AxPipe.prompt_of_promptB 4 cfgAx (fun _ => 0) (fun _ => 0) r.trace h3, by decide +kernel, by decide +kernel, by decide +kernel, by decide +kernel, by decide +kernel⟩

-- the same calls with the second write refused (SLVERR) and an error (DECERR) in the second beat of the first read
def sRefused : Sim AxIn AxAll := startAx [{}, readyIn, readyIn, readyIn, { readyIn with rvalid := .one, rdata := natToBits 32 0x44332211 },
  rIn 0 3 .one, { bIn with rvalid := .one, rdata := natToBits 32 0x88776655, rlast := .one }, { bIn with bresp := natToBits 2 2 }, {}, {}, {}]

example : let wcode := fun k => if k = 1 then 2 else 0
    let rcode := fun k n => if k = 0 ∧ n = 1 then 3 else 0
    let r := axMany cfgAx wMany rMany sRefused
    (∀ i ∈ sRefused.cur :: sRefused.rest, GoodBeat 4 i ∧ GoodResp i) ∧ (AxPipe.fresh (fun _ => 0)).Serves cfgAx wcode rcode r.trace ∧
    r.writes = [some (.ok (), (3, .edge)), some (.error (.axiProtocol 2), (2, .edge))] ∧
    r.reads = [some (.error (.axiProtocol 3), (4, .edge)), some (.ok [natToBits 32 0x88776655], (3, .edge))] := by
  intro wcode rcode r
  have h1 : (sRefused.cur :: sRefused.rest).all (goodB 4) = true := by decide +kernel
  have h2 : AxPipe.servesB cfgAx wcode rcode (AxPipe.fresh (fun _ => 0)) r.trace = true := by decide +kernel
  exact ⟨fun i hi => good_of_goodB (List.all_eq_true.1 h1 i hi), AxPipe.serves_of_servesB cfgAx wcode rcode r.trace (AxPipe.fresh (fun _ => 0)) h2, by decide +kernel, by decide +kernel⟩

-- AXI4-Lite: three tasks write and one reads; the read is called while they wait, and one of them is still waiting for its response at the end
example : let c := AxCfg.lite 16 4
    let wcalls : List (AxOp × Moment) := [(.liteWrite 0x100 0x44332211 none 0 1 true, (12, .mid)), (.liteWrite 0x102 0xEEDD (some 1) 2 0 true, (12, .mid)), (.liteWrite 0x104 7 none 0 0 false, (11, .edge))]
    let rcalls : List (AxOp × Moment) := [(.liteRead 0x100 true, (6, .mid))]
    let s := startAx (List.replicate 8 readyIn ++ [rIn 0x44DD2211 0 .zero, bIn, bIn, {}, {}])
    let r := axMany c wcalls rcalls s
    Standard c ∧ CallsOk c IsWrite wcalls ∧ CallsOk c IsRead rcalls ∧ (∀ i ∈ s.cur :: s.rest, GoodBeat 4 i ∧ GoodResp i) ∧
    (AxPipe.fresh (fun _ => 0)).Serves c (fun _ => 0) (fun _ _ => 0) r.trace ∧
    r.writes = [some (.ok (), (2, .edge)), some (.ok (), (1, .edge)), none] ∧ r.reads = [some (.ok [natToBits 32 0x44DD2211], (3, .edge))] := by
  intro c wcalls rcalls s r
  have h1 : (s.cur :: s.rest).all (goodB 4) = true := by decide +kernel
  have h2 : AxPipe.servesB c (fun _ => 0) (fun _ _ => 0) (AxPipe.fresh (fun _ => 0)) r.trace = true := by decide +kernel
  refine ⟨lite_standard 16 2 (by decide), ?_, ?_, fun i hi => good_of_goodB (List.all_eq_true.1 h1 i hi),
    AxPipe.serves_of_servesB c (fun _ => 0) (fun _ _ => 0) r.trace (AxPipe.fresh (fun _ => 0)) h2, by decide +kernel, by decide +kernel⟩
  · simp only [CallsOk, wcalls, List.forall_mem_cons]
    exact ⟨⟨⟨rfl, by decide⟩, trivial, by decide⟩, ⟨⟨rfl, by decide⟩, trivial, by decide⟩, ⟨⟨rfl, by decide⟩, trivial, by decide⟩, fun _ h => by cases h⟩
  · simp only [CallsOk, rcalls, List.forall_mem_cons]
    exact ⟨⟨⟨rfl, by decide⟩, trivial, by decide⟩, fun _ h => by cases h⟩

/-- C106 is false of all legal calls: with a data latency the second value of a burst is not the one that was to be written (C55), and a read
that is called when `write` has returned returns what is in the memory; all hypotheses but that on the latency hold. -/
theorem C106_violated :
    let wcalls : List (AxOp × Moment) := [(.write 0x100 [0x44332211, 0x88776655] none .incr [none] 0 1 true, (12, .mid))]
    let rcalls : List (AxOp × Moment) := [(.read 0x100 2 none .incr true, (6, .edge))]
    let s := startAx [readyIn, readyIn, readyIn, readyIn, readyIn, bIn, {}, readyIn, {}, rIn 0x44332211 0 .zero, rIn 0x44332211 0 .one, {}, {}]
    let r := axMany cfgAx wcalls rcalls s
    s.phase ≠ .ro ∧ (s.out.1.1.valid = .zero ∧ s.out.1.2.valid = .zero ∧ s.out.2.valid = .zero) ∧ (∀ i ∈ s.cur :: s.rest, GoodBeat 4 i ∧ GoodResp i) ∧
    Legal cfgAx 0x100 2 none .incr 4 ∧ CallsOk cfgAx IsRead rcalls ∧ (AxPipe.fresh (fun _ => 0)).Serves cfgAx (fun _ => 0) (fun _ _ => 0) r.trace ∧
    r.writes = [some (.ok (), (6, .edge))] ∧ r.reads = [some (.ok [natToBits 32 0x44332211, natToBits 32 0x44332211], (1, .edge))] ∧
    axReturns cfgAx (.read 0x100 2 none .incr true) (axFinal cfgAx (wcalls.map Prod.fst) (fun _ => 0)) = [natToBits 32 0x44332211, natToBits 32 0x88776655] := by
  intro wcalls rcalls s r
  have h1 : (s.cur :: s.rest).all (goodB 4) = true := by decide +kernel
  have h2 : AxPipe.servesB cfgAx (fun _ => 0) (fun _ _ => 0) (AxPipe.fresh (fun _ => 0)) r.trace = true := by decide +kernel
  have l1 : Legal cfgAx 0x100 2 none .incr 4 := (axiChecks_ok cfgAx 0x100 2 none .incr 4 2 rfl (by decide)).1 (by decide)
  refine ⟨by decide, by decide, fun i hi => good_of_goodB (List.all_eq_true.1 h1 i hi), l1, ?_,
    AxPipe.serves_of_servesB cfgAx (fun _ => 0) (fun _ _ => 0) r.trace (AxPipe.fresh (fun _ => 0)) h2, by decide +kernel, by decide +kernel, by decide +kernel⟩
  simp only [CallsOk, rcalls, List.forall_mem_cons]
  exact ⟨⟨⟨rfl, by decide, l1, fun h => by cases h⟩, trivial, by decide⟩, fun _ h => by cases h⟩

end CocotbBus
