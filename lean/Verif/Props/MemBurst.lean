import Verif.Proof.MemBurstW

/-! # Properties C47, C48, C81: bursts of `AvalonMemory`

`memRespond_unfold`: the coroutine of the memory is one `memCycle` after the other. The theorems are about the iteration that serves a
request, from any state with nothing left to return, with which it ends again. -/

namespace CocotbBus
open Spec Coro

/-- C47: a burst read is answered with waitrequest, then after the read latency with the consecutive little-endian words, one per cycle, and
nothing else appears on the pins; the memory is not changed, and it is ready for the next request. (Whatever is requested meanwhile, except
that no write may be requested in the cycle before that of the last word.) -/
theorem C47_burst_read (c : MemCfg) (hc : BurstMem c) (rand : Nat → Nat) (s : Sim MemIn MemOut) (hresp : s.out.responses = [])
    (i : MemIn) (r : List MemIn) (hr : s.rest = i :: r) (hrd : i.read = .one)
    (hnw : ∀ j, s.rest[c.readLatency + 1 + bitsToNat i.burstcount]? = some j → j.write ≠ .one)
    (ha : isResolvable i.address = true) (hb : isResolvable i.burstcount = true)
    (hal : bitsToNat i.address % (c.width / 8) = 0)
    (hthere : ∀ k < bitsToNat i.burstcount, WordThere c s.out.mem (bitsToNat i.address + k * (c.width / 8))) :
    let x := memCycle c rand s
    let pins := memPins s.out :: burstReadPins c s.out.mem s.out.readdata (bitsToNat i.address) (bitsToNat i.burstcount)
    memShown x <+: pins ∧
    (∀ e s', x.2 ≠ .err e s') ∧
    (∀ s', x.2 = .ok () s' → memShown x = pins ∧ s'.out.mem = s.out.mem ∧ s'.out.responses = []) ∧
    (c.readLatency + 3 + bitsToNat i.burstcount ≤ s.rest.length → x.2.isOk = true) := by
  intro x pins
  have h := memCycle_read_shows hc rand s hresp i r hr hrd hnw ha hb hal hthere
  refine ⟨h.pre, h.err, fun s' hx => ⟨(h.ok () s' hx).1, (h.ok () s' hx).2.2.1, (h.ok () s' hx).2.1⟩, ?_⟩
  intro hlen
  obtain ⟨hg1, hg2⟩ := memCycle_good c rand s
  have hl := congrArg List.length hg1
  simp only [List.length_append, List.length_map, List.length_cons] at hl
  cases hx : x.2 with
  | ok _ _ => rfl
  | err e s' => exact absurd hx (h.err e s')
  | blocked s' =>
    exfalso
    have h0 := hg2 s' hx
    rw [show (memCycle c rand s).2 = .blocked s' from hx] at hl
    simp only [End.sim, h0, List.length_nil] at hl
    have hpre := h.short s' hx
    simp only [memShown, List.length_append, List.length_map, List.length_cons, List.length_nil, burstReadPins, List.length_replicate, List.length_range] at hpre
    omega

/-- C81 is false of the code: a burst read requested while the words of another one are being returned gets no answer at all, though
waitrequest is 0 in that cycle. Here word 0 is requested, and then, in the cycle after it has been accepted (cycle 3), word 1. -/
def exBurstCfg : MemCfg := { width := 16, beW := some 2, hasBurst := true }
def exBurstMem : Nat → Option Nat := fun a => if a < 8 then some (16 + a) else none
def exRead (a : Nat) : MemIn := { read := .one, address := natToBits 8 a, burstcount := natToBits 4 1, byteenable := natToBits 2 3 }

theorem C81_violated :
    let r := memRespond exBurstCfg (fun _ => 1) ⟨.mid, ⟨[], .zero, .zero, exBurstMem, [], 0⟩, {}, {},
      [exRead 0, exRead 0, exRead 2, {}, {}, {}, {}, {}, {}, {}, {}, {}]⟩
    r.1.map (fun q => (q.2.read, q.1.waitrequest)) =
      [(.zero, .zero), (.one, .one), (.one, .one), (.one, .zero), (.zero, .zero), (.zero, .zero), (.zero, .zero), (.zero, .zero), (.zero, .zero), (.zero, .zero),
        (.zero, .zero), (.zero, .zero)] ∧
    (r.1.filter (fun q => q.1.readdatavalid == .one)).map (fun q => q.1.readdata) = [natToBits 16 0x1110] := by decide +kernel

/-- C48, proved part: a write burst of `b` beats. Under the conditions on the master and the random numbers below, exactly `b` beats are
accepted (write=1 and waitrequest=0 at a clock edge), their little-endian bytes are in memory at consecutive addresses, and nothing
else has changed; at any earlier point this is so for the beats accepted up to then (counting the current cycle). Nothing is raised.

Conditions: the first random choice does not insert a wait (else the memory dies: `C48_violated_first_wait`); the master keeps write asserted
while waitrequest is 1; and either it also makes no gaps between the beats (`gaps = false`) or no wait of zero cycles is drawn
(`C48_violated_gap`). -/
theorem C48_burst_write_partial (c : MemCfg) (hc : BurstMem c) (gaps : Bool) (rand : Nat → Nat) (s : Sim MemIn MemOut) (hresp : s.out.responses = [])
    (i : MemIn) (r : List MemIn) (hr : s.rest = i :: r) (hrd : i.read ≠ .one) (hwr : i.write = .one)
    (hcl : ∀ j ∈ s.rest, BeatClean j) (ha : isResolvable i.address = true) (hb : isResolvable i.burstcount = true)
    (hpos : 0 < bitsToNat i.burstcount)
    (hfirst : c.writeBurstWaitReq = true → rand s.out.drawn % 4 ≠ 0)
    (hidle : c.writeBurstWaitReq = false → s.out.waitrequest = .zero)
    (hzero : gaps = false ∨ (c.writeBurstWaitReq = true ∧ NoZeroWait c rand (bitsToNat i.burstcount - 1) (s.out.drawn + 1))) :
    let x := memCycle c rand s
    MasterKeeps gaps (bitsToNat i.burstcount) (cyclesOf x).tail →
    (∀ e s', x.2 ≠ .err e s') ∧
    (∀ s', x.2 = .ok () s' →
      (acceptedBeats x.1.tail).length = bitsToNat i.burstcount ∧
      s'.out.mem = storeWords c s.out.mem (bitsToNat i.address) (acceptedBeats x.1.tail)) ∧
    (∀ s', x.2 = .blocked s' → s'.rest = [] ∧
      (acceptedBeats (cyclesOf x).tail).length ≤ bitsToNat i.burstcount ∧
      s'.out.mem = storeWords c s.out.mem (bitsToNat i.address) (acceptedBeats (cyclesOf x).tail)) := by
  intro x hmk
  have hpop : memPop c s.out = { s.out with responses := [], readdatavalid := .zero } := by simp [memPop, hresp, hc.rdv]
  have hx : x = _ := memCycle_write_run hc rand s hresp i r hr hrd hwr
  have ho := memBurstWrite_outcome hc gaps rand ⟨.ro, memPop c s.out, s.cur, i, r⟩ rfl (fun j hj => hcl j (by rw [hr]; exact hj)) ha hb hpos
    (by rw [hpop]; exact hfirst) (by rw [hpop]; exact hidle) (by rw [hpop]; exact hzero)
  have hm : (memPop c s.out).mem = s.out.mem := by rw [hpop]
  rw [hx] at hmk ⊢
  simp only at ho hmk ⊢
  have hcy : ∀ (p : MemOut × MemIn) (y : Res MemIn MemOut Unit), (cyclesOf ((p :: y.1, y.2) : Res MemIn MemOut Unit)).tail = cyclesOf y := fun _ _ => rfl
  rw [hcy] at hmk ⊢
  obtain ⟨h1, h2, h3⟩ := ho hmk
  rw [hm] at h2 h3
  exact ⟨h1, fun s' h => ⟨(h2 () s' h).1, (h2 () s' h).2.1⟩, fun s' h => ⟨(h3 s' h).2.2.1, (h3 s' h).1, (h3 s' h).2.1⟩⟩

instance decMasterKeeps (gaps : Bool) : (b : Nat) → (l : List (MemOut × MemIn)) → Decidable (MasterKeeps gaps b l)
  | _, [] => .isTrue trivial
  | _, [_] => .isTrue trivial
  | b, q :: q' :: l =>
    have := decMasterKeeps gaps (b - (acceptedBeats [q]).length) (q' :: l)
    inferInstanceAs (Decidable (_ ∧ _))

/-- C48, reading back: after the words `ws` have been stored, a burst read (`C47_burst_read`) returns them. -/
theorem C48_read_back (c : MemCfg) (hc : BurstMem c) (mem : Nat → Option Nat) (addr : Nat) (ws : List Nat) (k w : Nat) (hk : ws[k]? = some w)
    (hw : w < 2 ^ c.width) :
    WordThere c (storeWords c mem addr ws) (addr + k * (c.width / 8)) ∧
    burstWord c (storeWords c mem addr ws) (addr + k * (c.width / 8)) = natToBits c.width w := burstWord_storeWords c hc mem addr ws k w hk hw

/-- C48 is false of the code: with the default properties, if the first random choice of a burst is to insert a wait (one in four), the
memory raises, since it is in the ReadOnly phase, and its coroutine ends: for every memory, request and state. -/
theorem C48_violated_first_wait (c : MemCfg) (hc : BurstMem c) (rand : Nat → Nat) (s : Sim MemIn MemOut) (hresp : s.out.responses = [])
    (i : MemIn) (r : List MemIn) (hr : s.rest = i :: r) (hrd : i.read ≠ .one) (hwr : i.write = .one)
    (hwb : c.writeBurstWaitReq = true) (hfirst : rand s.out.drawn % 4 = 0) :
    ∃ s', memRespond c rand s = ([(s.out, s.cur)], .err .readOnlyWrite s') ∧ s'.out.mem = s.out.mem := by
  have hpop : memPop c s.out = { s.out with responses := [], readdatavalid := .zero } := by simp [memPop, hresp, hc.rdv]
  have : ∃ s', memBurstWrite c rand ⟨.ro, memPop c s.out, s.cur, i, r⟩ = ([], .err .readOnlyWrite s') ∧ s'.out.mem = s.out.mem := by
    unfold memBurstWrite memWaitrequest memDraw memRandint
    simp only [hwb, Coro.when, if_true, bind_assoc]
    rw [bind_getOut, bind_setPy]
    simp only [pure_bind, hpop, hfirst, if_true, memDraw, bind_assoc]
    rw [bind_getOut, bind_setPy]
    simp only [pure_bind, Nat.not_lt_zero, if_false]
    cases rand (s.out.drawn + 1) % (c.maxWaitReqLen - 0 + 1) with
    | zero => rw [Nat.zero_add, memHold, pure_bind]; exact ⟨_, rfl, rfl⟩
    | succ n => rw [Nat.zero_add, memHold, bind_assoc]; exact ⟨_, rfl, rfl⟩
  obtain ⟨s', h1, h2⟩ := this
  refine ⟨s', ?_, h2⟩
  rw [memRespond_unfold, bind_run, memCycle_write_run hc rand s hresp i r hr hrd hwr]
  simp only [h1, andThen_err]

/-- The master's cycles of the examples: a beat with a data word, at byte address 2, of a burst of 2. -/
def exBeat (d : Nat) : MemIn :=
  { write := .one, address := natToBits 8 2, burstcount := natToBits 4 2, byteenable := natToBits 2 3, writedata := natToBits 16 d }

/-- C48 is false of the code also later in a burst: if a wait of zero cycles is drawn and the master makes a gap after the first beat, what is on
writedata in the gap is stored as the second word, and the second beat is ignored. -/
theorem C48_violated_gap :
    let r := memRespond exBurstCfg (fun k => if k = 0 then 1 else 0) ⟨.mid, ⟨[], .zero, .one, fun _ => none, [], 0⟩, {}, {},
      [exBeat 0x2211, { exBeat 0x6655 with write := .zero }, exBeat 0x4433, exBeat 0x4433]⟩
    acceptedBeats r.1 = [0x2211] ∧ (List.range 8).map r.2.sim.out.mem = [none, none, some 0x11, some 0x22, some 0x55, some 0x66, none, none] := by decide +kernel

/-! A 16-bit memory: a burst of two words with a wait of two cycles and a gap, then a burst read of them. -/

def exBurstRand : Nat → Nat := fun k => if k = 1 then 4 else if k = 2 then 2 else 1
def exBurstSim : Sim MemIn MemOut := ⟨.mid, ⟨[], .zero, .one, fun _ => none, [], 0⟩, {}, {},
  [exBeat 0x2211, { exBeat 0x6655 with write := .zero }, exBeat 0x4433, exBeat 0x4433, {}]⟩

example : BurstMem exBurstCfg := ⟨rfl, by decide, rfl, rfl, rfl, ⟨rfl, rfl⟩, ⟨rfl, rfl⟩⟩
example : NoZeroWait exBurstCfg exBurstRand (2 - 1) (0 + 1) := by simp [NoZeroWait, exBurstRand, exBurstCfg]
example : ∀ j ∈ exBurstSim.rest, BeatClean j := by
  intro j hj
  simp only [exBurstSim, List.mem_cons, List.not_mem_nil, or_false] at hj
  rcases hj with rfl | rfl | rfl | rfl | rfl <;> exact ⟨by decide, by decide⟩
example : (cyclesOf (memCycle exBurstCfg exBurstRand exBurstSim)).map (fun q => (q.2.write, q.1.waitrequest)) =
    [(.zero, .one), (.one, .zero), (.zero, .one), (.one, .one), (.one, .zero), (.zero, .one)] := by decide +kernel
example : MasterKeeps true 2 (cyclesOf (memCycle exBurstCfg exBurstRand exBurstSim)).tail := by
  decide +kernel
example : (memCycle exBurstCfg exBurstRand exBurstSim).2.isOk = true ∧
    acceptedBeats (memCycle exBurstCfg exBurstRand exBurstSim).1.tail = [0x2211, 0x4433] ∧
    (List.range 8).map (memCycle exBurstCfg exBurstRand exBurstSim).2.sim.out.mem = [none, none, some 0x11, some 0x22, some 0x33, some 0x44, none, none] := by
  decide +kernel
example : ∀ k < 2, WordThere exBurstCfg exBurstMem (2 + k * (exBurstCfg.width / 8)) := by
  intro k hk
  right
  intro j hj
  simp only [exBurstCfg] at hj ⊢
  exact ⟨16 + (2 + k * (16 / 8) + j), if_pos (by omega), by omega⟩
example : memShown (memCycle exBurstCfg (fun _ => 1) ⟨.mid, ⟨[], .zero, .zero, exBurstMem, [], 0⟩, {}, {},
      [{ exRead 2 with burstcount := natToBits 4 2 }, {}, {}, {}, {}, {}, {}, {}]⟩) =
    [([], .zero, .zero), ([], .zero, .one), ([], .zero, .one), ([], .zero, .zero), ([], .zero, .zero),
      (natToBits 16 0x1312, .one, .zero), (natToBits 16 0x1514, .one, .zero)] := by decide +kernel

end CocotbBus
