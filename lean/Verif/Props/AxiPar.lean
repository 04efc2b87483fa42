import Verif.Proof.AxiParLive

/-! # C103: reads and writes of an AXI4 or AXI4-Lite master at the same time -/

namespace CocotbBus
open Spec Coro

/-- C103: one task writes while another one reads through the same master, on a bus with a memory that refuses nothing. Whatever the
latencies: nothing is raised, and the writes are carried out one after the other, each at one moment between its call and its return
(`J n` of them after `n` clock edges); each beat of a read returns what was stored at one moment between the call of `read` and its
return, the moments being in the order of the beats. -/
theorem C103_parallel_partial (c : AxCfg) (hc : Standard c) (wops rops : List AxOp) (hw : ∀ op ∈ wops, AxOpOk c op ∧ WriteStep op) (hr : ∀ op ∈ rops, AxOpOk c op ∧ ReadStep op)
    (mem : Nat → Byte) (s : Sim AxIn AxAll) (hs : s.phase ≠ .ro ∧ s.out.1.1.valid = .zero ∧ s.out.1.2.valid = .zero ∧ s.out.2.valid = .zero)
    (hg : ∀ i ∈ s.cur :: s.rest, GoodBeat c.dataBytes i ∧ GoodResp i) :
    let r := axPar c wops rops s
    AxMem.Serves c (AxMem.idle allOkay 0 mem) r.trace →
      (∃ later, r.writes ++ later = wops.map (fun _ => .ok [])) ∧
      (∀ e s', r.writeEnd ≠ .err e s' ∧ r.readEnd ≠ .err e s') ∧
      (∀ s', r.writeEnd = .ok () s' → r.writes = wops.map (fun _ => .ok [])) ∧ (∀ s', r.readEnd = .ok () s' → r.reads.length = rops.length) ∧
      ∃ J : Nat → Nat, (∀ n m, n ≤ m → J n ≤ J m) ∧
        (∀ k e, axEnd c wops s k = some e → ∀ n, (e ≤ n → k ≤ J n) ∧ (n ≤ e → J n ≤ k)) ∧
        (∀ n ≤ r.trace.length, (AxMem.run c (AxMem.idle allOkay 0 mem) (r.trace.take n)).mem = axFinal c (wops.take (J n)) mem) ∧
        ∀ k out, r.reads[k]? = some out → ∃ op e0 e1 words, rops[k]? = some op ∧ axEnd c rops s k = some e0 ∧ axEnd c rops s (k + 1) = some e1 ∧ out = .ok words ∧
          ∃ τ : Nat → Nat, (∀ n < axBeats op, e0 ≤ τ n ∧ τ n < e1) ∧ (∀ n m, n < m → m < axBeats op → τ n < τ m) ∧
            AxSeen c op (fun n => axFinal c (wops.take (J (τ n))) mem) words := by
  intro r hserve
  obtain ⟨pad, hp1, hp2⟩ := axPar_left c wops rops s (fun op h => (hw op h).2)
  have hview : WView (AxMem.idle allOkay 0 mem) (AxMem.idle allOkay 0 mem) := ⟨rfl, rfl, rfl, rfl, rfl, rfl, rfl⟩
  have hsw := WView.serves (c := c) s.out.2 hs.2.2.2 r.trace hview hserve
  rw [hp1] at hsw
  obtain ⟨w1, w2, -, J, j1, j2, j3⟩ := axWriter c hc wops s 0 mem (fun op h => (hw op h).1) (fun op h => (hw op h).2) hs hg pad hp2 hsw
  have hlen : (padded (axUse c wops s).2 pad).length = r.trace.length := by rw [← hp1, List.length_map]
  have hmem : ∀ n ≤ r.trace.length, (AxMem.run c (AxMem.idle allOkay 0 mem) (r.trace.take n)).mem = axFinal c (wops.take (J n)) mem := by
    intro n hn
    have h1 := (WView.run (c := c) s.out.2 hs.2.2.2 (r.trace.take n) hview).1
    rw [List.map_take, hp1] at h1
    rw [← h1]
    exact j2 n (by rw [hlen]; exact hn)
  have hsr := servesR_of_serves c (fun n => axFinal c (wops.take (J n)) mem) r.trace 0 (AxMem.idle allOkay 0 mem) rfl (by
    intro n hn
    rw [hmem n hn, Nat.zero_add]) hserve
  obtain ⟨u, hu⟩ := axPar_right c wops rops s
  rw [hu, servesR_append] at hsr
  obtain ⟨r1, r2⟩ := axReader c hc (fun n => axFinal c (wops.take (J n)) mem) rops s 0 (fun op h => (hr op h).1) (fun op h => (hr op h).2) hs hg hsr.1
  refine ⟨w1, ?_, ?_, ?_, J, j1, j3, hmem, ?_⟩
  · intro e s'
    refine ⟨fun h => ?_, fun h => ?_⟩
    · rcases w2 with ⟨u, h'⟩ | ⟨u, h'⟩ <;> (rw [show (axUse c wops s).2.2 = _ from h] at h'; cases h')
    · rcases r1 with ⟨u, h'⟩ | ⟨u, h', _⟩ <;> (rw [show (axUse c rops s).2.2 = _ from h] at h'; cases h')
  · intro s' h
    have hs0 := ((serves_append c _ _ _).1 hsw).1
    obtain ⟨_, h2⟩ := axUse_ok c hc allOkay wops s 0 mem (fun op h => (hw op h).1) hs hg hs0
    obtain ⟨l, hl⟩ := w1
    rcases h2 with ⟨u, h2⟩ | ⟨u, _, h3, _⟩
    · rw [show (axUse c wops s).2.2 = _ from h] at h2; cases h2
    · have hll := congrArg List.length hl
      rw [(axOutcomes_okay c wops 0 mem).1] at h3
      have h4 : ∀ (ops : List AxOp) (m : Nat → Byte), (axReads c ops m).length = ops.length := by
        intro ops
        induction ops with
        | nil => intro m; rfl
        | cons op ops ih => intro m; rw [axReads, List.length_cons, List.length_cons, ih]
      have h5 := congrArg List.length h3
      rw [List.length_map, h4] at h5
      rw [List.length_append, List.length_map, h5] at hll
      have : l = [] := List.eq_nil_of_length_eq_zero (by omega)
      rw [this, List.append_nil] at hl
      exact hl
  · intro s' h
    rcases r1 with ⟨u, h'⟩ | ⟨u, _, h'⟩
    · rw [show (axUse c rops s).2.2 = _ from h] at h'; cases h'
    · exact h'
  · intro k out hk
    obtain ⟨op, e0, e1, words, g1, g2, g3, g4, g5⟩ := r2 k out hk
    rw [Nat.zero_add, Nat.zero_add] at g5
    exact ⟨op, e0, e1, words, g1, g2, g3, g4, g5⟩

/-- C103, a read of bytes that no write touches while it is in progress returns what all writes that had returned before it was called have
stored: `k0` of them had, and the `j` that may have been carried out until `read` returns leave its bytes as they were. -/
theorem C103_undisturbed_partial (c : AxCfg) (hc : Standard c) (wops rops : List AxOp) (hw : ∀ op ∈ wops, AxOpOk c op ∧ WriteStep op) (hr : ∀ op ∈ rops, AxOpOk c op ∧ ReadStep op)
    (mem : Nat → Byte) (s : Sim AxIn AxAll) (hs : s.phase ≠ .ro ∧ s.out.1.1.valid = .zero ∧ s.out.1.2.valid = .zero ∧ s.out.2.valid = .zero)
    (hg : ∀ i ∈ s.cur :: s.rest, GoodBeat c.dataBytes i ∧ GoodResp i)
    (k : Nat) (op : AxOp) (out : Except PyErr (List LogicArray)) (e0 e1 k0 e : Nat) (hop : rops[k]? = some op)
    (h0 : axEnd c rops s k = some e0) (h1 : axEnd c rops s (k + 1) = some e1) (hk0 : axEnd c wops s k0 = some e) (hle : e ≤ e0)
    (hsame : ∀ j, k0 ≤ j → (∀ k1 e', axEnd c wops s k1 = some e' → e1 ≤ e' → j ≤ k1) → ∀ b, axByte c op b → axFinal c (wops.take j) mem b = axFinal c (wops.take k0) mem b) :
    let r := axPar c wops rops s
    AxMem.Serves c (AxMem.idle allOkay 0 mem) r.trace → r.reads[k]? = some out → out = .ok (axReturns c op (axFinal c (wops.take k0) mem)) := by
  intro r hserve hout
  obtain ⟨_, _, _, _, J, j1, j2, _, j4⟩ := C103_parallel_partial c hc wops rops hw hr mem s hs hg hserve
  obtain ⟨op', e0', e1', words, g1, g2, g3, rfl, τ, t1, _, t3⟩ := j4 k out hout
  rw [hop] at g1
  cases g1
  rw [h0] at g2
  cases g2
  rw [h1] at g3
  cases g3
  have hmem := List.mem_of_getElem? hop
  rw [axSeen_const hc (hr op hmem).1 (hr op hmem).2 t3 (m := axFinal c (wops.take k0) mem) ?_]
  intro n hn b hb
  obtain ⟨u1, u2⟩ := t1 n hn
  refine hsame (J (τ n)) ((j2 k0 e hk0 (τ n)).1 (by omega)) ?_ b hb
  intro k1 e' hk1 he'
  exact (j2 k1 e' hk1 (τ n)).2 (by omega)

/-- C103, tasks that use different bytes do not notice each other: if no byte is addressed by both a write and a read, all reads return what was in the
memory at the beginning. -/
theorem C103_disjoint_partial (c : AxCfg) (hc : Standard c) (wops rops : List AxOp) (hw : ∀ op ∈ wops, AxOpOk c op ∧ WriteStep op) (hr : ∀ op ∈ rops, AxOpOk c op ∧ ReadStep op)
    (mem : Nat → Byte) (s : Sim AxIn AxAll) (hs : s.phase ≠ .ro ∧ s.out.1.1.valid = .zero ∧ s.out.1.2.valid = .zero ∧ s.out.2.valid = .zero)
    (hg : ∀ i ∈ s.cur :: s.rest, GoodBeat c.dataBytes i ∧ GoodResp i)
    (hdisj : ∀ w ∈ wops, ∀ op ∈ rops, ∀ b, ¬ (axByte c w b ∧ axByte c op b)) :
    let r := axPar c wops rops s
    AxMem.Serves c (AxMem.idle allOkay 0 mem) r.trace → ∃ later, r.reads ++ later = rops.map (fun op => .ok (axReturns c op mem)) := by
  intro r hserve
  have hfin : ∀ (ws : List AxOp), (∀ w ∈ ws, w ∈ wops) → ∀ m op, op ∈ rops → ∀ b, axByte c op b → axFinal c ws m b = m b := by
    intro ws
    induction ws with
    | nil => intro _ m op _ b _; rfl
    | cons w ws ih =>
      intro hws m op hop b hb
      rw [axFinal, ih (fun w h => hws w (by simp [h])) _ op hop b hb]
      exact axAfter_frame hc (hw w (hws w (by simp))).1 (fun h => hdisj w (hws w (by simp)) op hop b ⟨h, hb⟩) m
  obtain ⟨_, _, _, _, J, _, _, _, j4⟩ := C103_parallel_partial c hc wops rops hw hr mem s hs hg hserve
  have hget : ∀ (k : Nat) (out : Except PyErr (List LogicArray)), r.reads[k]? = some out → (rops.map (fun op => (.ok (axReturns c op mem) : Except PyErr (List LogicArray))))[k]? = some out := by
    intro k out hk
    obtain ⟨op, e0, e1, words, g1, _, _, rfl, τ, _, _, t3⟩ := j4 k out hk
    have hmem := List.mem_of_getElem? g1
    rw [List.getElem?_map, g1, axSeen_const hc (hr op hmem).1 (hr op hmem).2 t3 (m := mem) (fun n _ b hb => hfin _ (fun w h => List.mem_of_mem_take h) mem op hmem b hb)]
    rfl
  have hpre : r.reads <+: rops.map (fun op => .ok (axReturns c op mem)) := by
    rw [List.prefix_iff_eq_take]
    refine List.ext_getElem? (fun k => ?_)
    by_cases hk : k < r.reads.length
    · rw [List.getElem?_take_of_lt hk, List.getElem?_eq_getElem hk, hget k _ (List.getElem?_eq_getElem hk)]
    · rw [List.getElem?_eq_none (by omega), List.getElem?_eq_none (by rw [List.length_take]; omega)]
  obtain ⟨l, hl⟩ := hpre
  exact ⟨l, hl⟩

/-- C103, with deadlines: if moreover the memory does everything that is due within `N` clock edges and the clock runs for as many edges as
each of the tasks needs then on its own (`axCost`), both tasks are through by then. -/
theorem C103_returns_partial (c : AxCfg) (hc : Standard c) (N : Nat) (wops rops : List AxOp) (hw : ∀ op ∈ wops, AxOpOk c op ∧ WriteStep op) (hr : ∀ op ∈ rops, AxOpOk c op ∧ ReadStep op)
    (mem : Nat → Byte) (s : Sim AxIn AxAll) (hs : s.phase ≠ .ro ∧ s.out.1.1.valid = .zero ∧ s.out.1.2.valid = .zero ∧ s.out.2.valid = .zero)
    (hg : ∀ i ∈ s.cur :: s.rest, GoodBeat c.dataBytes i ∧ GoodResp i) (hwlen : (wops.map (axCost N)).sum ≤ s.rest.length) (hrlen : (rops.map (axCost N)).sum ≤ s.rest.length) :
    let r := axPar c wops rops s
    AxMem.Serves c (AxMem.idle allOkay 0 mem) r.trace → AxMem.Prompt N c (AxMem.idle allOkay 0 mem) AxWait.zero r.trace →
      (∃ s', r.writeEnd = .ok () s') ∧ (∃ s', r.readEnd = .ok () s') ∧ r.writes = wops.map (fun _ => .ok []) ∧ r.reads.length = rops.length ∧
      r.trace.length ≤ max (wops.map (axCost N)).sum (rops.map (axCost N)).sum := by
  intro r hserve hprompt
  obtain ⟨_, _, h1, h2, J, _, _, hmem, _⟩ := C103_parallel_partial c hc wops rops hw hr mem s hs hg hserve
  obtain ⟨pad, hp1, _⟩ := axPar_left c wops rops s (fun op h => (hw op h).2)
  have hview : WView (AxMem.idle allOkay 0 mem) (AxMem.idle allOkay 0 mem) := ⟨rfl, rfl, rfl, rfl, rfl, rfl, rfl⟩
  have hsw := WView.serves (c := c) s.out.2 hs.2.2.2 r.trace hview hserve
  have hpw := WView.prompt (c := c) N s.out.2 hs.2.2.2 r.trace AxWait.zero hview hprompt
  rw [hp1] at hsw hpw
  obtain ⟨sw, w1, _, w3⟩ := axUse_live c hc N allOkay wops s 0 mem (fun op h => (hw op h).1) hs hg ((serves_append c _ _ _).1 hsw).1 (prompt_append N c _ _ _ _ hpw).1 hwlen
  have hsr := servesR_of_serves c (fun n => axFinal c (wops.take (J n)) mem) r.trace 0 (AxMem.idle allOkay 0 mem) rfl (by
    intro n hn
    rw [hmem n hn, Nat.zero_add]) hserve
  obtain ⟨u, hu⟩ := axPar_right c wops rops s
  rw [hu, servesR_append] at hsr
  have hpr := readOnly_prompt c N allOkay mem s.out.1 ⟨hs.2.1, hs.2.2.1⟩ r.trace (AxMem.idle allOkay 0 mem) AxWait.zero 0 hprompt
  obtain ⟨u', hu'⟩ := axPar_right' c wops rops s (fun op h => (hr op h).2)
  rw [hu'] at hpr
  obtain ⟨sr, r1, r2⟩ := axReader_live c hc _ N allOkay mem rops s 0 0 (fun op h => (hr op h).1) (fun op h => (hr op h).2) hs hg hsr.1 (prompt_append N c _ _ _ _ hpr).1 hrlen
  refine ⟨⟨sw, w1⟩, ⟨sr, r1⟩, h1 sw w1, h2 sr r1, ?_⟩
  have hj := congrArg List.length (joinTrace_left ((axUse c wops s).2.1.map (fun q => (q.1.1, q.2))) (axUse c wops s).2.2.sim.out.1 (axUse c rops s).2.2.sim.out.2 ((axUse c rops s).2.1.map (fun q => (q.1.2, q.2))))
  simp only [List.length_map, List.length_append, List.length_drop] at hj
  have : r.trace.length = (axUse c wops s).2.1.length + ((axUse c rops s).2.1.length - (axUse c wops s).2.1.length) := hj
  omega

/-- two words are written, and later one byte of the second -/
def wPar : List AxOp :=
  [.write 0x100 [0x44332211, 0x88776655] none .incr [none] 0 0 true, .pause 4, .write 0x106 [0xAB] (some 1) .fixed [none] 0 0 true]

/-- both words are read, and later the second -/
def rPar : List AxOp := [.read 0x100 2 none .incr true, .pause 2, .read 0x104 1 none .incr true]

def schedPar : List AxIn :=
  [{}, readyIn, { rIn 0 0 .zero with wready := .one }, rIn 0x88776655 0 .one, bIn, {}, {}, readyIn, rIn 0x88776655 0 .one, {}, readyIn, readyIn, bIn, {}, {}]

theorem wPar_ok : ∀ op ∈ wPar, AxOpOk cfgAx op ∧ WriteStep op := by
  have h1 : Legal cfgAx 0x100 2 none .incr 4 := (axiChecks_ok cfgAx 0x100 2 none .incr 4 2 rfl (by decide)).1 (by decide)
  have h2 : Legal cfgAx 0x106 1 (some 1) .fixed 1 := (axiChecks_ok cfgAx 0x106 1 (some 1) .fixed 1 2 rfl (by decide)).1 (by decide)
  simp only [wPar, List.forall_mem_cons]
  exact ⟨⟨⟨rfl, by decide, by decide, by decide, h1, fun h => by cases h⟩, trivial⟩, ⟨trivial, Nat.succ_pos _⟩,
    ⟨⟨rfl, by decide, by decide, by decide, h2, fun h => by cases h⟩, trivial⟩, fun _ h => by cases h⟩

theorem rPar_ok : ∀ op ∈ rPar, AxOpOk cfgAx op ∧ ReadStep op := by
  have h1 : Legal cfgAx 0x100 2 none .incr 4 := (axiChecks_ok cfgAx 0x100 2 none .incr 4 2 rfl (by decide)).1 (by decide)
  have h2 : Legal cfgAx 0x104 1 none .incr 4 := (axiChecks_ok cfgAx 0x104 1 none .incr 4 2 rfl (by decide)).1 (by decide)
  simp only [rPar, List.forall_mem_cons]
  exact ⟨⟨⟨rfl, by decide, h1, fun h => by cases h⟩, trivial⟩, ⟨trivial, Nat.succ_pos _⟩, ⟨⟨rfl, by decide, h2, fun h => by cases h⟩, trivial⟩, fun _ h => by cases h⟩

-- the elaborator would unfold it on the whole trace
attribute [local irreducible] AxMem.Serves AxMem.Prompt

-- the first read has one beat from before and one from after the write that is made at the same time
example : let s := startAx schedPar
    let r := axPar cfgAx wPar rPar s
    (s.phase ≠ .ro ∧ s.out.1.1.valid = .zero ∧ s.out.1.2.valid = .zero ∧ s.out.2.valid = .zero) ∧ (∀ i ∈ s.cur :: s.rest, GoodBeat 4 i ∧ GoodResp i) ∧
    AxMem.Serves cfgAx (AxMem.idle allOkay 0 (fun _ => 0)) r.trace ∧ r.writes = [.ok [], .ok [], .ok []] ∧
    r.reads = [.ok [natToBits 32 0, natToBits 32 0x88776655], .ok [], .ok [natToBits 32 0x88776655]] ∧
    [0, 1, 2, 3].map (axEnd cfgAx wPar s) = [some 0, some 5, some 9, some 13] ∧ [0, 1, 2, 3].map (axEnd cfgAx rPar s) = [some 0, some 4, some 6, some 9] := by
  intro s r
  have h1 : (s.cur :: s.rest).all (goodB 4) = true := by decide +kernel
  have h2 : AxMem.servesB cfgAx (AxMem.idle allOkay 0 (fun _ => 0)) r.trace = true := by decide +kernel
  exact ⟨by decide, fun i hi => good_of_goodB (List.all_eq_true.1 h1 i hi), AxMem.serves_of_servesB cfgAx r.trace (AxMem.idle allOkay 0 (fun _ => 0)) h2,
    by decide +kernel, by decide +kernel, by decide +kernel, by decide +kernel⟩

-- the last read is made while the first task waits (its step 2): the first write is seen by it
example : let s := startAx schedPar
    rPar[2]? = some (.read 0x104 1 none .incr true) ∧ axEnd cfgAx rPar s 2 = some 6 ∧ axEnd cfgAx rPar s 3 = some 9 ∧ axEnd cfgAx wPar s 1 = some 5 ∧
    ∀ j, 1 ≤ j → (∀ k1 e', axEnd cfgAx wPar s k1 = some e' → 9 ≤ e' → j ≤ k1) →
      axFinal cfgAx (wPar.take j) (fun _ => 0) = axFinal cfgAx (wPar.take 1) (fun _ => 0) := by
  intro s
  refine ⟨rfl, by decide +kernel, by decide +kernel, by decide +kernel, ?_⟩
  intro j h1 h2
  have h3 : j ≤ 2 := h2 2 9 (by decide +kernel) (by decide)
  have : j = 1 ∨ j = 2 := by omega
  rcases this with rfl | rfl <;> rfl

-- different bytes
example : let rops := [.read 0x108 2 none .incr true, .pause 2, .read 0x10A 1 none .incr true]
    let s := startAx [{}, readyIn, { rIn 0 0 .zero with wready := .one }, rIn 0 0 .one, bIn, {}, {}, readyIn, rIn 0 0 .one, {}, readyIn, readyIn, bIn, {}, {}]
    let r := axPar cfgAx wPar rops s
    (∀ w ∈ wPar, ∀ op ∈ rops, ∀ b, ¬ (axByte cfgAx w b ∧ axByte cfgAx op b)) ∧ (∀ op ∈ rops, AxOpOk cfgAx op ∧ ReadStep op) ∧
    (∀ i ∈ s.cur :: s.rest, GoodBeat 4 i ∧ GoodResp i) ∧
    AxMem.Serves cfgAx (AxMem.idle allOkay 0 (fun _ => 0)) r.trace ∧ r.reads.length = 3 ∧ r.writes.length = 3 := by
  intro rops s r
  have h1 : (s.cur :: s.rest).all (goodB 4) = true := by decide +kernel
  have h2 : AxMem.servesB cfgAx (AxMem.idle allOkay 0 (fun _ => 0)) r.trace = true := by decide +kernel
  have l1 : Legal cfgAx 0x108 2 none .incr 4 := (axiChecks_ok cfgAx 0x108 2 none .incr 4 2 rfl (by decide)).1 (by decide)
  have l2 : Legal cfgAx 0x10A 1 none .incr 4 := (axiChecks_ok cfgAx 0x10A 1 none .incr 4 2 rfl (by decide)).1 (by decide)
  have hb : ∀ op ∈ rops, ∀ b, axByte cfgAx op b → 0x108 ≤ b := by
    simp only [rops, List.forall_mem_cons]
    refine ⟨?_, fun b h => h.elim, ?_, fun _ h => by cases h⟩
    · rintro b ⟨n, hn, h, _⟩
      refine Nat.le_trans ?_ h
      have : n = 0 ∨ n = 1 := by
        have : n < 2 := hn
        omega
      rcases this with rfl | rfl <;> decide
    · rintro b ⟨n, hn, h, _⟩
      refine Nat.le_trans ?_ h
      have : n = 0 := by
        have : n < 1 := hn
        omega
      subst this
      decide
  refine ⟨?_, ?_, fun i hi => good_of_goodB (List.all_eq_true.1 h1 i hi), AxMem.serves_of_servesB cfgAx r.trace (AxMem.idle allOkay 0 (fun _ => 0)) h2,
    by decide +kernel, by decide +kernel⟩
  · intro w hw op hop b h
    have hge := hb op hop b h.2
    have hlt : b < 0x108 := by
      have h := h.1
      revert w
      simp only [wPar, List.forall_mem_cons]
      refine ⟨?_, fun _ h => h.elim, ?_, fun _ h => by cases h⟩
      · rintro - ⟨n, hn, -, h⟩
        refine Nat.lt_of_lt_of_le h ?_
        have : n = 0 ∨ n = 1 := by
          have : n < 2 := hn
          omega
        rcases this with rfl | rfl <;> decide
      · rintro - ⟨n, hn, -, h⟩
        refine Nat.lt_of_lt_of_le h ?_
        have : n = 0 := by
          have : n < 1 := hn
          omega
        subst this
        decide
    omega
  · simp only [rops, List.forall_mem_cons]
    exact ⟨⟨⟨rfl, by decide, l1, fun h => by cases h⟩, trivial⟩, ⟨trivial, Nat.succ_pos _⟩, ⟨⟨rfl, by decide, l2, fun h => by cases h⟩, trivial⟩, fun _ h => by cases h⟩

-- the same test as the first one, with a memory that answers within 3 edges for everything
example : let s := startAx (schedPar ++ List.replicate 10 ({} : AxIn))
    let r := axPar cfgAx wPar rPar s
    (wPar.map (axCost 3)).sum ≤ s.rest.length ∧ (rPar.map (axCost 3)).sum ≤ s.rest.length ∧ AxMem.Serves cfgAx (AxMem.idle allOkay 0 (fun _ => 0)) r.trace ∧
    AxMem.Prompt 3 cfgAx (AxMem.idle allOkay 0 (fun _ => 0)) AxWait.zero r.trace := by
  intro s r
  have h1 : AxMem.servesB cfgAx (AxMem.idle allOkay 0 (fun _ => 0)) r.trace = true := by decide +kernel
  have h2 : AxMem.promptB 3 cfgAx (AxMem.idle allOkay 0 (fun _ => 0)) AxWait.zero r.trace = true := by decide +kernel
  exact ⟨by decide +kernel, by decide +kernel, AxMem.serves_of_servesB cfgAx r.trace (AxMem.idle allOkay 0 (fun _ => 0)) h1,
    AxMem.prompt_of_promptB 3 cfgAx r.trace (AxMem.idle allOkay 0 (fun _ => 0)) AxWait.zero h2⟩

/-- C103 is false of all legal calls for the same reason as C100: with a data latency the second value of a burst is not the one that was to
be written (C55), and a read that is made by another task when `write` has returned returns what is in the memory; all hypotheses but
that on the latency hold. -/
theorem C103_violated :
    let wops := [.write 0x100 [0x44332211, 0x88776655] none .incr [none] 0 1 true]
    let rops := [.pause 6, .read 0x100 2 none .incr true]
    let s := startAx [readyIn, readyIn, readyIn, readyIn, readyIn, bIn, {}, readyIn, {}, rIn 0x44332211 0 .zero, rIn 0x44332211 0 .one, {}, {}]
    let r := axPar cfgAx wops rops s
    (s.phase ≠ .ro ∧ s.out.1.1.valid = .zero ∧ s.out.1.2.valid = .zero ∧ s.out.2.valid = .zero) ∧
    (∀ i ∈ s.cur :: s.rest, GoodBeat 4 i ∧ GoodResp i) ∧ Legal cfgAx 0x100 2 none .incr 4 ∧ (∀ op ∈ wops, WriteStep op) ∧ (∀ op ∈ rops, AxOpOk cfgAx op ∧ ReadStep op) ∧
    AxMem.Serves cfgAx (AxMem.idle allOkay 0 (fun _ => 0)) r.trace ∧ axEnd cfgAx wops s 1 = some 6 ∧ axEnd cfgAx rops s 1 = some 6 ∧
    r.reads = [.ok [], .ok [natToBits 32 0x44332211, natToBits 32 0x44332211]] ∧
    axReturns cfgAx (.read 0x100 2 none .incr true) (axFinal cfgAx wops (fun _ => 0)) = [natToBits 32 0x44332211, natToBits 32 0x88776655] := by
  intro wops rops s r
  have h1 : (s.cur :: s.rest).all (goodB 4) = true := by decide +kernel
  have h2 : AxMem.servesB cfgAx (AxMem.idle allOkay 0 (fun _ => 0)) r.trace = true := by decide +kernel
  have l1 : Legal cfgAx 0x100 2 none .incr 4 := (axiChecks_ok cfgAx 0x100 2 none .incr 4 2 rfl (by decide)).1 (by decide)
  refine ⟨by decide, fun i hi => good_of_goodB (List.all_eq_true.1 h1 i hi), l1, ?_, ?_,
    AxMem.serves_of_servesB cfgAx r.trace (AxMem.idle allOkay 0 (fun _ => 0)) h2, by decide +kernel, by decide +kernel, by decide +kernel, by decide +kernel⟩
  · simp only [wops, List.forall_mem_cons]
    exact ⟨trivial, fun _ h => by cases h⟩
  · simp only [rops, List.forall_mem_cons]
    exact ⟨⟨trivial, Nat.succ_pos _⟩, ⟨⟨rfl, by decide, l1, fun h => by cases h⟩, trivial⟩, fun _ h => by cases h⟩

end CocotbBus
