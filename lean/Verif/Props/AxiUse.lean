import Verif.Proof.AxiLive

/-! # C100, C102: AXI4 and AXI4-Lite masters with a memory -/

namespace CocotbBus
open Spec Coro

/-- C102: any sequence of `write` and `read` calls of an AXI4 or AXI4-Lite master on a bus with a memory that may refuse any of them,
where the test catches the protocol errors and goes on. Whatever the latencies and the responses of the memory: each call returns or raises
according to the responses to it alone, a read that is not refused returns what was stored by the writes before that were not refused, and
nothing but the protocol errors is raised. When the test is through, the memory contains what those writes stored and has nothing
outstanding. -/
theorem C102_usable_partial (c : AxCfg) (hc : Standard c) (ops : List AxOp) (hops : ∀ op ∈ ops, AxOpOk c op) (code : Nat → Nat → Nat) (mem : Nat → Byte)
    (s : Sim AxIn AxAll) (hs : s.phase ≠ .ro ∧ s.out.1.1.valid = .zero ∧ s.out.1.2.valid = .zero ∧ s.out.2.valid = .zero)
    (hg : ∀ i ∈ s.cur :: s.rest, GoodBeat c.dataBytes i ∧ GoodResp i) :
    let r := axUse c ops s
    AxMem.Serves c (AxMem.idle code 0 mem) r.2.1 →
      (∃ later, r.1 ++ later = axOutcomes c code 0 ops mem) ∧
      (∀ e, result r.2 ≠ some (.error e)) ∧
      (result r.2 = some (.ok ()) → r.1 = axOutcomes c code 0 ops mem ∧
        AxMem.run c (AxMem.idle code 0 mem) r.2.1 = AxMem.idle code (ops.map axRequests).sum (axLast c code 0 ops mem)) := by
  intro r hserve
  obtain ⟨h1, h2⟩ := axUse_ok c hc code ops s 0 mem hops hs hg hserve
  refine ⟨h1, ?_, ?_⟩
  · intro e h
    unfold result at h
    rcases h2 with ⟨s', h2⟩ | ⟨s', h2, _⟩ <;> (rw [show r.2.2 = _ from h2] at h; cases h)
  · intro h
    unfold result at h
    rcases h2 with ⟨s', h2⟩ | ⟨s', _, h3, h4⟩
    · rw [show r.2.2 = _ from h2] at h; cases h
    · rw [Nat.zero_add] at h4
      exact ⟨h3, h4⟩

/-- C102, with deadlines: if moreover the memory does everything that is due within `N` clock edges and the clock runs for as many edges as
the calls need then (`axCost`), every call returns or raises its protocol error, and the test has used no more edges than that. -/
theorem C102_returns_partial (c : AxCfg) (hc : Standard c) (N : Nat) (ops : List AxOp) (hops : ∀ op ∈ ops, AxOpOk c op) (code : Nat → Nat → Nat) (mem : Nat → Byte)
    (s : Sim AxIn AxAll) (hs : s.phase ≠ .ro ∧ s.out.1.1.valid = .zero ∧ s.out.1.2.valid = .zero ∧ s.out.2.valid = .zero)
    (hg : ∀ i ∈ s.cur :: s.rest, GoodBeat c.dataBytes i ∧ GoodResp i) (hlen : (ops.map (axCost N)).sum ≤ s.rest.length) :
    let r := axUse c ops s
    AxMem.Serves c (AxMem.idle code 0 mem) r.2.1 → AxMem.Prompt N c (AxMem.idle code 0 mem) AxWait.zero r.2.1 →
      result r.2 = some (.ok ()) ∧ r.1 = axOutcomes c code 0 ops mem ∧ r.2.1.length ≤ (ops.map (axCost N)).sum := by
  intro r hserve hp
  obtain ⟨s', h1, -, h2⟩ := axUse_live c hc N code ops s 0 mem hops hs hg hserve hp hlen
  have hres : result r.2 = some (.ok ()) := by unfold result; rw [show r.2.2 = _ from h1]
  exact ⟨hres, ((C102_usable_partial c hc ops hops code mem s hs hg hserve).2.2 hres).1, h2⟩

/-- a memory that refuses nothing -/
theorem axOutcome_okay (c : AxCfg) (op : AxOp) (mem : Nat → Byte) :
    axOutcome c (fun _ => 0) op mem = .ok (axReturns c op mem) ∧ axNext c (fun _ => 0) op mem = axAfter c op mem := by
  have h : ∀ n ∈ axCodes (fun _ => 0) op, n = 0 := by
    intro n hn
    cases op <;> simp [axCodes] at hn <;> omega
  refine ⟨?_, ?_⟩
  · rw [axOutcome, List.find?_eq_none.2 (fun n hn => by simp [h n hn])]
  · rw [axNext, if_pos (List.all_eq_true.2 fun n hn => by simp [h n hn])]

theorem axOutcomes_okay (c : AxCfg) (ops : List AxOp) : ∀ (k : Nat) (mem : Nat → Byte),
    axOutcomes c allOkay k ops mem = (axReads c ops mem).map .ok ∧ axLast c allOkay k ops mem = axFinal c ops mem := by
  induction ops with
  | nil => intro k mem; exact ⟨rfl, rfl⟩
  | cons op ops ih =>
    intro k mem
    have h := axOutcome_okay c op mem
    have e : allOkay k = fun _ => 0 := rfl
    rw [axOutcomes, axLast, axReads, axFinal, e, h.1, h.2, (ih _ _).1, (ih _ _).2]
    exact ⟨rfl, rfl⟩

/-- C100: any sequence of `write` and `read` calls of an AXI4 or AXI4-Lite master on a bus with a memory that refuses nothing, whatever the
latencies of the memory, behaves like reads and writes of an array of bytes. Nothing is raised; what the reads return, as far as the test
has come, is what was stored by the writes before; and when the test is through, the memory contains what the writes stored and has nothing
outstanding. -/
theorem C100_memory_partial (c : AxCfg) (hc : Standard c) (ops : List AxOp) (hops : ∀ op ∈ ops, AxOpOk c op) (mem : Nat → Byte) (s : Sim AxIn AxAll)
    (hs : s.phase ≠ .ro ∧ s.out.1.1.valid = .zero ∧ s.out.1.2.valid = .zero ∧ s.out.2.valid = .zero)
    (hg : ∀ i ∈ s.cur :: s.rest, GoodBeat c.dataBytes i ∧ GoodResp i) :
    let r := axUse c ops s
    AxMem.Serves c (AxMem.idle allOkay 0 mem) r.2.1 →
      (∃ later, r.1 ++ later = (axReads c ops mem).map .ok) ∧
      (∀ e, result r.2 ≠ some (.error e)) ∧
      (result r.2 = some (.ok ()) → r.1 = (axReads c ops mem).map .ok ∧
        AxMem.run c (AxMem.idle allOkay 0 mem) r.2.1 = AxMem.idle allOkay (ops.map axRequests).sum (axFinal c ops mem)) := by
  have h := C102_usable_partial c hc ops hops allOkay mem s hs hg
  rw [(axOutcomes_okay c ops 0 mem).1, (axOutcomes_okay c ops 0 mem).2] at h
  exact h

/-- C100, with deadlines: if moreover the memory does everything that is due within `N` clock edges and the clock runs for as many edges as
the calls need then (`axCost`), every call returns: the test is through, all reads have returned what was stored, and the test has
used no more edges than that. -/
theorem C100_returns_partial (c : AxCfg) (hc : Standard c) (N : Nat) (ops : List AxOp) (hops : ∀ op ∈ ops, AxOpOk c op) (mem : Nat → Byte) (s : Sim AxIn AxAll)
    (hs : s.phase ≠ .ro ∧ s.out.1.1.valid = .zero ∧ s.out.1.2.valid = .zero ∧ s.out.2.valid = .zero)
    (hg : ∀ i ∈ s.cur :: s.rest, GoodBeat c.dataBytes i ∧ GoodResp i) (hlen : (ops.map (axCost N)).sum ≤ s.rest.length) :
    let r := axUse c ops s
    AxMem.Serves c (AxMem.idle allOkay 0 mem) r.2.1 → AxMem.Prompt N c (AxMem.idle allOkay 0 mem) AxWait.zero r.2.1 →
      result r.2 = some (.ok ()) ∧ r.1 = (axReads c ops mem).map .ok ∧ r.2.1.length ≤ (ops.map (axCost N)).sum := by
  have h := C102_returns_partial c hc N ops hops allOkay mem s hs hg hlen
  rw [(axOutcomes_okay c ops 0 mem).1] at h
  exact h

/-! ### An instance -/

/-- a test of `respIs` -/
def respB (v : LogicArray) (n : Nat) : Bool := isResolvable v && bitsToNat v == n && decide (n < 4)

theorem resp_of_respB {v : LogicArray} {n : Nat} (h : respB v n = true) : respIs v n := by
  simp only [respB, Bool.and_eq_true, beq_iff_eq, decide_eq_true_eq] at h
  exact ⟨h.1.1, h.1.2, h.2⟩

/-- a test of `AxMem.Right` -/
def AxMem.rightB (c : AxCfg) (m : AxMem) (i : AxIn) : Bool :=
  (!bFire i || m.b.all (respB i.bresp)) &&
  (!rFire i ||
    match m.ar with
    | none => true
    | some (p, n) =>
      let (a, size, burst, len) := p.decode c.dataBytes
      i.rdata.length == 8 * c.dataBytes && respB i.rresp (m.code m.k n) && (rLast c i == decide (n + 1 = len)) &&
      (m.code m.k n != 0 || (List.range size).all (fun j =>
        let b := beatAddr size burst a len n + j
        !decide (b < alignedAddr size (beatAddr size burst a len n) + size) || lane i.rdata (b % c.dataBytes) == byteBits (m.mem b))))

theorem AxMem.right_of_rightB {c : AxCfg} {m : AxMem} {i : AxIn} (h : AxMem.rightB c m i = true) : m.Right c i := by
  unfold AxMem.rightB at h
  rw [Bool.and_eq_true, Bool.or_eq_true, Bool.or_eq_true] at h
  obtain ⟨h1, h2⟩ := h
  refine ⟨?_, ?_⟩
  · intro hb r hr
    rcases h1 with h1 | h1
    · rw [hb] at h1; cases h1
    · rw [hr] at h1
      exact resp_of_respB h1
  · intro hr p n hm
    rcases h2 with h2 | h6
    · rw [hr] at h2; cases h2
    · rw [hm] at h6
      simp only [Bool.and_eq_true, beq_iff_eq, List.all_eq_true, List.mem_range, Bool.or_eq_true, Bool.not_eq_true', decide_eq_false_iff_not, bne_iff_ne] at h6 ⊢
      generalize p.decode c.dataBytes = d at h6
      obtain ⟨a, size, burst, len⟩ := d
      simp only at h6
      obtain ⟨⟨⟨h5, h7⟩, h8⟩, h9⟩ := h6
      refine ⟨h5, resp_of_respB h7, by rw [h8]; simp, ?_⟩
      intro h0 b hb
      have hb1 : beatAddr size burst a len n ≤ b := hb.1
      have hb2 : b < alignedAddr size (beatAddr size burst a len n) + size := hb.2
      have hsz : alignedAddr size (beatAddr size burst a len n) ≤ beatAddr size burst a len n := Nat.div_mul_le_self _ _
      rcases h9 with h9 | h9
      · exact absurd h0 h9
      have := h9 (b - beatAddr size burst a len n) (by omega)
      rw [Nat.add_sub_cancel' hb1] at this
      rcases this with h | h
      · exact absurd hb2 h
      · exact h

def AxMem.servesB (c : AxCfg) : AxMem → List (AxAll × AxIn) → Bool
  | _, [] => true
  | m, q :: t => AxMem.rightB c m q.2 && AxMem.servesB c (m.step c q) t

theorem AxMem.serves_of_servesB (c : AxCfg) (t : List (AxAll × AxIn)) : ∀ m : AxMem, AxMem.servesB c m t = true → AxMem.Serves c m t := by
  induction t with
  | nil => intro m _; trivial
  | cons q t ih =>
    intro m h
    rw [AxMem.servesB, Bool.and_eq_true] at h
    exact ⟨AxMem.right_of_rightB h.1, ih _ h.2⟩

/-- a test of `GoodBeat` and `GoodResp` -/
def goodB (W : Nat) (i : AxIn) : Bool :=
  (!rFire i || (i.rdata.length == 8 * W && isResolvable i.rresp && decide (bitsToNat i.rresp < 4))) && (!bFire i || (isResolvable i.bresp && decide (bitsToNat i.bresp < 4)))

theorem good_of_goodB {W : Nat} {i : AxIn} (h : goodB W i = true) : GoodBeat W i ∧ GoodResp i := by
  unfold goodB at h
  rw [Bool.and_eq_true, Bool.or_eq_true, Bool.or_eq_true] at h
  obtain ⟨h1, h2⟩ := h
  refine ⟨?_, ?_⟩
  · intro hr
    rcases h1 with h1 | h1
    · rw [hr] at h1; cases h1
    · simp only [Bool.and_eq_true, beq_iff_eq, decide_eq_true_eq] at h1
      exact ⟨h1.1.1, _, h1.1.2, rfl, h1.2⟩
  · intro hb
    rcases h2 with h2 | h2
    · rw [hb] at h2; cases h2
    · simp only [Bool.and_eq_true, decide_eq_true_eq] at h2
      exact ⟨_, h2.1, rfl, h2.2⟩

def startAx (sched : List AxIn) : Sim AxIn AxAll := ⟨.mid, ((idleA, idleW), idleA), {}, sched.headD {}, sched.tail⟩

/-- the response to a write -/
def bIn : AxIn := { bvalid := .one, bready := .one }

/-- two words are written to an unaligned address, one byte of the second is overwritten, and both words are read back; then a WRAP
burst reads the words from the second on -/
def opsAx : List AxOp :=
  [.write 0x101 [0x44332211, 0x88776655] none .incr [none] 1 0 true, .pause 2, .write 0x106 [0xAB] (some 1) .fixed [none] 0 0 false,
   .read 0x101 2 none .incr true, .read 0x104 2 none .wrap true]

def schedAx : List AxIn :=
  [{}, {}, readyIn, readyIn, readyIn, readyIn, bIn, {}, {}, readyIn, readyIn, bIn, {}, readyIn, {}, rIn 0x332211FF 0 .zero, {}, rIn 0x77AB5544 0 .one, {},
   readyIn, rIn 0x77AB5544 0 .zero, rIn 0x33221100 0 .one, {}, {}, {}]

-- the elaborator would unfold it on the whole trace
attribute [local irreducible] AxMem.Serves

example : (∀ op ∈ opsAx, AxOpOk cfgAx op) ∧ (∀ i ∈ (startAx schedAx).cur :: (startAx schedAx).rest, GoodBeat 4 i ∧ GoodResp i) ∧
    AxMem.Serves cfgAx (AxMem.idle allOkay 0 (fun _ => 0)) (axUse cfgAx opsAx (startAx schedAx)).2.1 ∧
    result (axUse cfgAx opsAx (startAx schedAx)).2 = some (.ok ()) := by
  refine ⟨?_, ?_, ?_, ?_⟩
  · have h1 : Legal cfgAx 0x101 2 none .incr 4 := (axiChecks_ok cfgAx 0x101 2 none .incr 4 2 rfl (by decide)).1 (by decide)
    have h2 : Legal cfgAx 0x106 1 (some 1) .fixed 1 := (axiChecks_ok cfgAx 0x106 1 (some 1) .fixed 1 2 rfl (by decide)).1 (by decide)
    have h3 : Legal cfgAx 0x104 2 none .wrap 4 := (axiChecks_ok cfgAx 0x104 2 none .wrap 4 2 rfl (by decide)).1 (by decide)
    simp only [opsAx, List.forall_mem_cons]
    refine ⟨⟨rfl, by decide, by decide, by decide, h1, fun h => by cases h⟩, trivial, ⟨rfl, by decide, by decide, by decide, h2, fun h => by cases h⟩,
      ⟨rfl, by decide, h1, fun h => by cases h⟩, ⟨rfl, by decide, h3, fun _ => by decide⟩, fun _ h => by cases h⟩
  · have : ((startAx schedAx).cur :: (startAx schedAx).rest).all (goodB 4) = true := by decide +kernel
    intro i hi
    exact good_of_goodB (List.all_eq_true.1 this i hi)
  · have : AxMem.servesB cfgAx (AxMem.idle allOkay 0 (fun _ => 0)) (axUse cfgAx opsAx (startAx schedAx)).2.1 = true := by decide +kernel
    exact AxMem.serves_of_servesB cfgAx (axUse cfgAx opsAx (startAx schedAx)).2.1 (AxMem.idle allOkay 0 (fun _ => 0)) this
  · decide +kernel

/-- a test of `AxMem.Prompt` -/
def belowB (N : Nat) (x : AxWait) : Bool := decide (x.aw < N) && decide (x.w < N) && decide (x.ar < N) && decide (x.r < N) && x.b.all (decide <| · < N)

def AxMem.promptB (N : Nat) (c : AxCfg) : AxMem → AxWait → List (AxAll × AxIn) → Bool
  | _, x, [] => belowB N x
  | m, x, q :: t => belowB N x && AxMem.promptB N c (m.step c q) (x.step c m q) t

theorem below_of_belowB {N : Nat} {x : AxWait} (h : belowB N x = true) : x.Below N := by
  unfold belowB at h
  simp only [Bool.and_eq_true, decide_eq_true_eq] at h
  obtain ⟨⟨⟨⟨h1, h2⟩, h3⟩, h4⟩, h5⟩ := h
  refine ⟨h1, h2, h3, h4, fun k hk => ?_⟩
  rw [hk] at h5
  simpa using h5

theorem AxMem.prompt_of_promptB (N : Nat) (c : AxCfg) (t : List (AxAll × AxIn)) : ∀ (m : AxMem) (x : AxWait), AxMem.promptB N c m x t = true → AxMem.Prompt N c m x t := by
  induction t with
  | nil => intro m x h; exact below_of_belowB h
  | cons q t ih =>
    intro m x h
    rw [AxMem.promptB, Bool.and_eq_true] at h
    exact ⟨below_of_belowB h.1, ih _ _ h.2⟩

attribute [local irreducible] AxMem.Prompt

-- the same test, with a memory that answers within 3 edges for everything
example : let s := startAx (schedAx ++ List.replicate 14 ({} : AxIn))
    let r := axUse cfgAx opsAx s
    (opsAx.map (axCost 3)).sum ≤ s.rest.length ∧ AxMem.Serves cfgAx (AxMem.idle allOkay 0 (fun _ => 0)) r.2.1 ∧ AxMem.Prompt 3 cfgAx (AxMem.idle allOkay 0 (fun _ => 0)) AxWait.zero r.2.1 := by
  intro s r
  have h1 : AxMem.servesB cfgAx (AxMem.idle allOkay 0 (fun _ => 0)) r.2.1 = true := by decide +kernel
  have h2 : AxMem.promptB 3 cfgAx (AxMem.idle allOkay 0 (fun _ => 0)) AxWait.zero r.2.1 = true := by decide +kernel
  exact ⟨by decide +kernel, AxMem.serves_of_servesB cfgAx r.2.1 (AxMem.idle allOkay 0 (fun _ => 0)) h1, AxMem.prompt_of_promptB 3 cfgAx r.2.1 (AxMem.idle allOkay 0 (fun _ => 0)) AxWait.zero h2⟩

-- AXI4-Lite, with latencies
example : let c := AxCfg.lite 16 4
    let ops := [.liteWrite 0x101 0x44332211 none 2 1 true, .liteRead 0x100 true, .liteWrite 0x102 0xEEDD (some 1) 0 0 false, .liteRead 0x101 false]
    let s := startAx [{}, readyIn, readyIn, readyIn, readyIn, readyIn, bIn, {}, readyIn, {}, rIn 0x33221100 0 .zero, {}, readyIn, bIn, {}, readyIn, rIn 0x33DD1100 0 .zero, {}, {}]
    let r := axUse c ops s
    Standard c ∧ (∀ op ∈ ops, AxOpOk c op) ∧ (∀ i ∈ s.cur :: s.rest, GoodBeat 4 i ∧ GoodResp i) ∧ AxMem.Serves c (AxMem.idle allOkay 0 (fun _ => 0)) r.2.1 ∧
    result r.2 = some (.ok ()) ∧ r.1 = [.ok [], .ok [natToBits 32 0x33221100], .ok [], .ok [natToBits 24 0x33DD11]] := by
  intro c ops s r
  have h1 : (s.cur :: s.rest).all (goodB 4) = true := by decide +kernel
  have h2 : AxMem.servesB c (AxMem.idle allOkay 0 (fun _ => 0)) r.2.1 = true := by decide +kernel
  refine ⟨lite_standard 16 2 (by decide), ?_, fun i hi => good_of_goodB (List.all_eq_true.1 h1 i hi), AxMem.serves_of_servesB c r.2.1 (AxMem.idle allOkay 0 (fun _ => 0)) h2,
    by decide +kernel, by decide +kernel⟩
  simp only [ops, List.forall_mem_cons]
  exact ⟨⟨rfl, by decide⟩, ⟨rfl, by decide⟩, ⟨rfl, by decide⟩, ⟨rfl, by decide⟩, fun _ h => by cases h⟩

/-- the first write is refused with SLVERR, the third read has DECERR in its second beat -/
def codeAx : Nat → Nat → Nat := fun k n => if k = 0 then 2 else if k = 4 ∧ n = 1 then 3 else 0

-- a memory that refuses some requests: the write that is refused is not stored, and the calls after an error do what they should
example : let ops := [.write 0x100 [0x44332211, 0x88776655] none .incr [none] 0 0 true, .read 0x100 1 none .incr true, .write 0x104 [0xAABBCCDD] none .incr [none] 0 0 false,
      .read 0x104 1 none .incr false, .read 0x104 3 none .incr true, .read 0x104 1 none .incr true]
    let s := startAx [{}, readyIn, readyIn, { bIn with bresp := natToBits 2 2 }, {}, readyIn, {}, rIn 0 0 .one, readyIn, bIn, readyIn, rIn 0xAABBCCDD 0 .one, {},
      readyIn, rIn 0xAABBCCDD 0 .zero, rIn 0xFFFF 3 .zero, rIn 0 0 .one, {}, readyIn, rIn 0xAABBCCDD 0 .one, {}]
    let r := axUse cfgAx ops s
    (∀ op ∈ ops, AxOpOk cfgAx op) ∧ (∀ i ∈ s.cur :: s.rest, GoodBeat 4 i ∧ GoodResp i) ∧ AxMem.Serves cfgAx (AxMem.idle codeAx 0 (fun _ => 0)) r.2.1 ∧
    result r.2 = some (.ok ()) ∧ r.1 = [.error (.axiProtocol 2), .ok [natToBits 32 0], .ok [], .ok [natToBits 32 0xAABBCCDD], .error (.axiProtocol 3), .ok [natToBits 32 0xAABBCCDD]] := by
  intro ops s r
  have h1 : (s.cur :: s.rest).all (goodB 4) = true := by decide +kernel
  have h2 : AxMem.servesB cfgAx (AxMem.idle codeAx 0 (fun _ => 0)) r.2.1 = true := by decide +kernel
  have l1 : Legal cfgAx 0x100 2 none .incr 4 := (axiChecks_ok cfgAx 0x100 2 none .incr 4 2 rfl (by decide)).1 (by decide)
  have l2 : Legal cfgAx 0x100 1 none .incr 4 := (axiChecks_ok cfgAx 0x100 1 none .incr 4 2 rfl (by decide)).1 (by decide)
  have l3 : Legal cfgAx 0x104 1 none .incr 4 := (axiChecks_ok cfgAx 0x104 1 none .incr 4 2 rfl (by decide)).1 (by decide)
  have l4 : Legal cfgAx 0x104 3 none .incr 4 := (axiChecks_ok cfgAx 0x104 3 none .incr 4 2 rfl (by decide)).1 (by decide)
  refine ⟨?_, fun i hi => good_of_goodB (List.all_eq_true.1 h1 i hi), AxMem.serves_of_servesB cfgAx r.2.1 (AxMem.idle codeAx 0 (fun _ => 0)) h2,
    by decide +kernel, by decide +kernel⟩
  simp only [ops, List.forall_mem_cons]
  exact ⟨⟨rfl, by decide, by decide, by decide, l1, fun h => by cases h⟩, ⟨rfl, by decide, l2, fun h => by cases h⟩, ⟨rfl, by decide, by decide, by decide, l3, fun h => by cases h⟩,
    ⟨rfl, by decide, l3, fun h => by cases h⟩, ⟨rfl, by decide, l4, fun h => by cases h⟩, ⟨rfl, by decide, l3, fun h => by cases h⟩, fun _ h => by cases h⟩

/-- C100 is false of all legal calls: with a data latency the second value of a burst is not the one that was to be written (C55), and
a read returns what is in the memory; all hypotheses but that on the latency hold. -/
theorem C100_violated :
    let ops := [.write 0x100 [0x44332211, 0x88776655] none .incr [none] 0 1 true, .read 0x100 2 none .incr true]
    let s := startAx [readyIn, readyIn, readyIn, readyIn, readyIn, bIn, {}, readyIn, {}, rIn 0x44332211 0 .zero, rIn 0x44332211 0 .one, {}, {}]
    let r := axUse cfgAx ops s
    (s.phase ≠ .ro ∧ s.out.1.1.valid = .zero ∧ s.out.1.2.valid = .zero ∧ s.out.2.valid = .zero) ∧
    (∀ i ∈ s.cur :: s.rest, GoodBeat 4 i ∧ GoodResp i) ∧ Legal cfgAx 0x100 2 none .incr 4 ∧
    AxMem.Serves cfgAx (AxMem.idle allOkay 0 (fun _ => 0)) r.2.1 ∧ result r.2 = some (.ok ()) ∧ r.1 ≠ (axReads cfgAx ops (fun _ => 0)).map .ok := by
  intro ops s r
  have h1 : (s.cur :: s.rest).all (goodB 4) = true := by decide +kernel
  have h2 : AxMem.servesB cfgAx (AxMem.idle allOkay 0 (fun _ => 0)) r.2.1 = true := by decide +kernel
  refine ⟨by decide, fun i hi => good_of_goodB (List.all_eq_true.1 h1 i hi), (axiChecks_ok cfgAx 0x100 2 none .incr 4 2 rfl (by decide)).1 (by decide),
    AxMem.serves_of_servesB cfgAx r.2.1 (AxMem.idle allOkay 0 (fun _ => 0)) h2, by decide +kernel, by decide +kernel⟩

/-- C102 is false of all legal calls for the same reason: here the read is refused, the first write is not what it should be, and a later
read returns what is in the memory. -/
theorem C102_violated :
    let ops := [.write 0x100 [0x44332211, 0x88776655] none .incr [none] 0 1 true, .read 0x100 2 none .incr true, .read 0x104 1 none .incr true]
    let s := startAx [readyIn, readyIn, readyIn, readyIn, readyIn, bIn, {}, readyIn, {}, rIn 0x44332211 2 .zero, rIn 0x44332211 0 .one, {}, readyIn, rIn 0x44332211 0 .one, {}, {}]
    let code := fun k n => if k = 1 ∧ n = 0 then 2 else 0
    let r := axUse cfgAx ops s
    (s.phase ≠ .ro ∧ s.out.1.1.valid = .zero ∧ s.out.1.2.valid = .zero ∧ s.out.2.valid = .zero) ∧
    (∀ i ∈ s.cur :: s.rest, GoodBeat 4 i ∧ GoodResp i) ∧ Legal cfgAx 0x100 2 none .incr 4 ∧ Legal cfgAx 0x104 1 none .incr 4 ∧
    AxMem.Serves cfgAx (AxMem.idle code 0 (fun _ => 0)) r.2.1 ∧ result r.2 = some (.ok ()) ∧
    r.1 = [.ok [], .error (.axiProtocol 2), .ok [natToBits 32 0x44332211]] ∧
    axOutcomes cfgAx code 0 ops (fun _ => 0) = [.ok [], .error (.axiProtocol 2), .ok [natToBits 32 0x88776655]] := by
  intro ops s code r
  have h1 : (s.cur :: s.rest).all (goodB 4) = true := by decide +kernel
  have h2 : AxMem.servesB cfgAx (AxMem.idle code 0 (fun _ => 0)) r.2.1 = true := by decide +kernel
  refine ⟨by decide, fun i hi => good_of_goodB (List.all_eq_true.1 h1 i hi), (axiChecks_ok cfgAx 0x100 2 none .incr 4 2 rfl (by decide)).1 (by decide),
    (axiChecks_ok cfgAx 0x104 1 none .incr 4 2 rfl (by decide)).1 (by decide),
    AxMem.serves_of_servesB cfgAx r.2.1 (AxMem.idle code 0 (fun _ => 0)) h2, by decide +kernel, by decide +kernel, by decide +kernel⟩

end CocotbBus
