import Verif.Proof.SwapBench
import Verif.Props.Online
import Verif.Props.PktsReconf

/-!
C118: the endian swapper example as a whole: packet driver, device, configuration setter, both packet monitors, scoreboard.
-/

namespace CocotbBus
open Spec Coro

/-- C118: packets go in from the driver, with any valid generator, any backpressure and any write requests on the control bus at any time. What the
monitor at the output has reported, wherever the run stops, are the first so many of those packets, unchanged, and it raised nothing. It is
never behind by more than the packet that is on its way through the device, and never ahead. -/
theorem C118_packets (c : PkCfg) (n : Nat) (hb : ByteBus c n) (h8 : c.bitsPerSymbol = 8) (hch : c.channelW = none) (hrd : c.hasReady = true)
    (hto : c.invalidTimeout = 0) (items : List PkItem) (hne : items ≠ []) (hi : ∀ p ∈ items, p.pkt ≠ [] ∧ p.channel = none)
    (v : Valids) (s : Sim PkIn PkOut) (hs : s.phase ≠ .ro)
    (hin : ∀ i ∈ s.cur :: s.rest, inReset i.resetN i.reset = .ok false ∧ (i.ready = .zero ∨ i.ready = .one))
    (data empty : LogicArray) (prev : Logic) (hfirst : (∀ p, items.head? = some p → p.sync = true) ∨ prev ≠ .one)
    (order : Bool) (csr : Nat → Option Bool) :
    let t := (pkSendAll c items v s).1
    ∃ k st, pkMonitorDyn (swapRun c.highFirst c (.reset data empty) prev order csr t) {} =
        ((items.map (fun p => reportOf c p.pkt none)).take k, .ok st) ∧
      k ≤ ended (beatsIn c t) ∧ ended (beatsIn c t) ≤ k + 1 := by
  intro t
  have hmem : ∀ r ∈ t, r.2 ∈ s.cur :: s.rest := by
    intro r hm
    rw [((Good.pkSendAll c items v) s).1]
    exact List.mem_append_left _ (List.mem_map_of_mem hm)
  obtain ⟨ps, p1, p2, p3, p4, -, p6, -⟩ := swap_trace c n hb h8 hch hrd items hne hi v s hs [] (fun x hx => (by cases hx))
    (fun r hr => (hin _ (hmem r (by simpa using hr))).1) prev hfirst
  rw [List.append_nil] at p4 p6
  obtain ⟨pend, done, st, h1, h2, -, h3, h4, h5⟩ := swap_monitor c n hch hrd hto ps p2 p3 data empty prev order csr t p4
    (fun r hr => (hin _ (hmem r hr)).2) (fun r hr => (hin _ (hmem r hr)).1) p6
  have hreports : ps.map (fun p => reportOf c p.1 none) = items.map (fun p => reportOf c p.pkt none) := by
    have := congrArg (List.map (fun b => reportOf c b none)) p1
    rwa [List.map_map, List.map_map] at this
  have he : ended (beatsIn c t) = ended done + ended pend.toList := by rw [h1, ended_append]
  have hp : ended pend.toList ≤ 1 := by
    unfold ended
    refine Nat.le_trans (List.length_filter_le _ _) ?_
    cases pend <;> simp
  refine ⟨ended done, st, ?_, by omega, by omega⟩
  rw [h5, hreports]

/-- C118: the test. After the driver is done, the test goes on for any number of clock edges, at least one of them with `ready`. Then the monitor at
the output has reported all packets and nothing else, the device has counted them all (modulo 2^32), its control bus does not keep the read
of the counter waiting, the monitor at the input has reported as many, and the verdict of the scoreboard is success: for any valid generator, any backpressure, any write requests on the control bus,
and whichever of the two monitors runs first at each edge. -/
theorem C118_test (c : PkCfg) (n : Nat) (hb : ByteBus c n) (h8 : c.bitsPerSymbol = 8) (hch : c.channelW = none) (hrd : c.hasReady = true)
    (hto : c.invalidTimeout = 0) (items : List PkItem) (hne : items ≠ []) (hi : ∀ p ∈ items, p.pkt ≠ [] ∧ p.channel = none)
    (v : Valids) (s : Sim PkIn PkOut) (hs : s.phase ≠ .ro) (v' : Valids) (s' : Sim PkIn PkOut) (tail : List PkIn)
    (hin : ∀ i ∈ s.cur :: s.rest ++ tail, inReset i.resetN i.reset = .ok false ∧ (i.ready = .zero ∨ i.ready = .one))
    (hend : (pkSendAll c items v s).2 = .ok v' s') (htail : ∃ i ∈ tail, i.ready = .one)
    (data empty : LogicArray) (prev : Logic) (hfirst : (∀ p, items.head? = some p → p.sync = true) ∨ prev ≠ .one)
    (order : Bool) (csr : Nat → Option Bool) (first : Nat → Bool)
    (ops : TxnOps PkReport) (name : Option String) (imm strict : Bool) (hops : ∀ r, Accepts ops strict r r)
    (inMon outMon ref : Nat) (hmon : inMon ≠ outMon) :
    let t := (pkSendAll c items v s).1 ++ tail.map (fun i => (s'.out, i))
    let h := swapTest c data empty prev order csr first t
    (∃ st, pkMonitorDyn (swapRun c.highFirst c (.reset data empty) prev order csr t) {} = (items.map (fun p => reportOf c p.pkt none), .ok st)) ∧
    (swapAfter (.reset data empty) csr t).count = items.length % 2 ^ 32 ∧
    (swapAfter (.reset data empty) csr t).waitrequest s'.out = .zero ∧
    (inputsOf h).length = items.length ∧
    (playIo inMon outMon ref id h (refBench ops imm (fun _ => []) inMon outMon ref (busMonitor name) strict id)).sb.result = .ok () := by
  intro t h
  let u : List (PkOut × PkIn) := tail.map (fun i => (s'.out, i))
  have hmem : ∀ r ∈ t, r.2 ∈ s.cur :: s.rest ++ tail := by
    intro r hm
    rcases List.mem_append.1 hm with hm | hm
    · have h0 : r.2 ∈ s.cur :: s.rest := by
        rw [((Good.pkSendAll c items v) s).1]
        exact List.mem_append_left _ (List.mem_map_of_mem hm)
      exact List.mem_append_left _ h0
    · obtain ⟨i, hi', rfl⟩ := List.mem_map.1 hm
      exact List.mem_append_right _ hi'
  have hres : ∀ r ∈ t, inReset r.2.resetN r.2.reset = .ok false := fun r hr => (hin _ (hmem r hr)).1
  have hready : ∀ r ∈ t, Known r.2.ready := fun r hr => (hin _ (hmem r hr)).2
  obtain ⟨ps, p1, p2, p3, p4, p5, p6, p7⟩ := swap_trace c n hb h8 hch hrd items hne hi v s hs u
    (fun x hx => by obtain ⟨i, -, rfl⟩ := List.mem_map.1 hx; exact ⟨v', s', hend, rfl⟩) hres prev hfirst
  have hall : beatsIn c t = ps.flatMap (fun p => p.2.2) := p7 ⟨v', s', hend⟩
  have hlen : ps.length = items.length := by simpa using congrArg List.length p1
  have hreports : ps.map (fun p => reportOf c p.1 none) = items.map (fun p => reportOf c p.pkt none) := by
    have := congrArg (List.map (fun b => reportOf c b none)) p1
    rwa [List.map_map, List.map_map] at this
  have hreports' : ps.map (fun p => reportOf c p.1 p.2.1) = items.map (fun p => reportOf c p.pkt none) := by
    rw [← hreports]
    exact List.map_congr_left fun p hp => by rw [p2 p hp]
  -- the monitor at the input
  have hinp : ∀ k, ∃ st, pkMonitor c (t.take k) {} = ((items.map (fun p => reportOf c p.pkt none)).take (ended (beatsIn c (t.take k))), .ok st) := by
    intro k
    rw [← hreports']
    exact pkMonitor_packets c n hb.pos ps p3 _ (fun r hr => ⟨false, hres r (List.mem_of_mem_take hr)⟩) (.inl hto)
      ((beatsIn_take c t k).trans p6)
  have hended : ended (beatsIn c t) = items.length := by rw [hall, ended_packets c n ps p3, hlen]
  have hle : ∀ k, ended (beatsIn c (t.take k)) ≤ items.length := by
    intro k
    obtain ⟨w, hw⟩ := beatsIn_take c t k
    rw [← hended, ← hw, ended_append]
    omega
  -- the monitor at the output
  obtain ⟨pend, done, st, h1, h2, hfree, h3, h4, h5⟩ := swap_monitor c n hch hrd hto ps p2 p3 data empty prev order csr t p4 hready hres p6
  have hflush : (swapAfter (.reset data empty) csr t).flush = .zero := by
    have hk : Known (swapAfter (.reset data empty) csr (pkSendAll c items v s).1).flush := by
      obtain ⟨-, -, -, -, h2', -⟩ := swap_monitor c n hch hrd hto ps p2 p3 data empty prev order csr (t.take (pkSendAll c items v s).1.length)
        (walk_prefix _ _ t _ _ p4) (fun r hr => hready r (List.mem_of_mem_take hr)) (fun r hr => hres r (List.mem_of_mem_take hr))
        ((beatsIn_take c t _).trans p6)
      rw [List.take_left' rfl] at h2'
      exact h2'
    rw [swapAfter_append]
    refine swap_flush u _ _ hk (fun r hr => ⟨p5 r hr, hready r (List.mem_append_right _ hr)⟩) (.inr ?_)
    obtain ⟨i, hi1, hi2⟩ := htail
    exact ⟨(s'.out, i), List.mem_map_of_mem hi1, hi2⟩
  have hdone : ended done = items.length := by
    rw [← hended, h1, ended_append]
    cases hp : pend with
    | none => rfl
    | some b => simp [ended, h3 hflush b hp]
  have hout : pkMonitorDyn (swapRun c.highFirst c (.reset data empty) prev order csr t) {} = (items.map (fun p => reportOf c p.pkt none), .ok st) := by
    rw [h5, hdone, hreports, List.take_of_length_le (by simp)]
  have hin' : (pkMonitor c t {}).1 = items.map (fun p => reportOf c p.pkt none) := by
    obtain ⟨st', h6⟩ := hinp t.length
    rw [List.take_length, hended, List.take_of_length_le (by simp)] at h6
    rw [h6]
  -- what the two deliver
  have hlen2 : (pkEdges (swapRun c.highFirst c (.reset data empty) prev order csr t) {}).length = (pkEdges (t.map (fun r => (c, r))) {}).length := by
    rw [pkEdges_length, pkEdges_length, swapRun_length, List.length_map]
  obtain ⟨hb1, hb2⟩ := bench_inputs _ _ first hlen2
  have hI : inputsOf h = items.map (fun p => reportOf c p.pkt none) := by
    show inputsOf (benchOps _ _ _) = _
    rw [hb1, pkEdges_reports, C117_constant, hin']
  have hO : outputsOf h = items.map (fun p => reportOf c p.pkt none) := by
    show outputsOf (benchOps _ _ _) = _
    rw [hb2, pkEdges_reports, hout]
  have hnone : pend = none := by
    cases hp : pend with
    | none => rfl
    | some b =>
      refine absurd (packets_last c n ps p3 b ?_) (h3 hflush b hp)
      rw [← hall, h1, hp, Option.toList_some, List.getLast?_concat]
  refine ⟨⟨st, hout⟩, ?_, ?_, by rw [hI, List.length_map], ?_⟩
  · have hc := swap_count c hrd t (.reset data empty) (prev, false) csr p4 hready hres
    rw [hall, (framed_packets c n ps p3).2, hlen] at hc
    rw [Nat.mod_eq_of_lt (swap_count_lt t _ csr (by simp [SwapDev.reset]))] at hc
    simpa [SwapDev.reset] using hc
  · obtain ⟨-, f2, f3⟩ := hfree hnone
    obtain ⟨i, hi1, -⟩ := htail
    have hz : s'.out.valid = .zero := p5 (s'.out, i) (List.mem_map_of_mem hi1)
    simp only [SwapDev.waitrequest]
    rw [f2, f3, hz]
    cases s'.out.sop <;> rfl
  · rw [C101_model_partial ops name imm strict _ inMon outMon ref hmon]
    refine ⟨?_, ?_⟩
    · intro p r q hpq
      have := bench_credit (pkEdges (t.map (fun r => (c, r))) {}) (pkEdges (swapRun c.highFirst c (.reset data empty) prev order csr t) {}) first 0 0 ?_ p r q hpq
      · simpa using this
      · intro k
        rw [← pkEdges_take, ← pkEdges_take, pkEdges_reports, pkEdges_reports, ← swapRun_take, ← List.map_take, C117_constant]
        have hcr := swap_credit c n hch hrd hto ps p2 p3 data empty prev order csr t p4 hready hres p6 k
        obtain ⟨st', h6⟩ := hinp k
        rw [h6, List.length_take, List.length_map]
        have := hle k
        omega
    · rw [hO, hI, List.map_id, List.nil_append]
      exact ⟨rfl, fun k _ _ => hops _⟩

/-! ### Instances -/

/-- 16 data bits, no channel -/
def swCfg : PkCfg := { width := 16, hasReady := true, emptyW := some 1, channelW := none }

theorem swCfg_bus : ByteBus swCfg 2 := ⟨by decide, rfl, fun _ => ⟨1, rfl, by decide⟩, fun w h => by cases h⟩

/-- backpressure, then ready -/
def swStart : Sim PkIn PkOut :=
  ⟨.mid, ⟨.zero, .x, .x, List.replicate 16 .x, [.x], []⟩, rdy .one, rdy .one, ([.one, .zero, .one, .one, .zero, .zero] ++ List.replicate 12 .one : List Logic).map rdy⟩

/-- a packet of two beats, one of one beat that is not full, and one that follows without a gap -/
def swItems : List PkItem := [⟨[1, 2, 3], true, none⟩, ⟨[4], true, none⟩, ⟨[5, 6], false, none⟩]

/-- the input stream, and two more edges -/
def swTrace : List (PkOut × PkIn) :=
  match pkSendAll swCfg swItems (setValidGenerator (some [(2, 2)])) swStart with
  | (t, .ok _ s') => t ++ [rdy .zero, rdy .one].map (fun i => (s'.out, i))
  | (t, _) => t

/-- byte swapping is asked for all the time, now with 1 and now with 0 -/
def swCsr (k : Nat) : Option Bool := some (k % 4 == 0)

def pktOps : TxnOps PkReport := ⟨fun a b => a == b, fun _ => 0, fun r => toString (repr r)⟩

-- the hypotheses hold
example : (∀ p ∈ swItems, p.pkt ≠ [] ∧ p.channel = none) ∧ (∀ p, swItems.head? = some p → p.sync = true) ∧
    (∀ i ∈ swStart.cur :: swStart.rest ++ [rdy .zero, rdy .one], inReset i.resetN i.reset = .ok false ∧ (i.ready = .zero ∨ i.ready = .one)) ∧
    (pkSendAll swCfg swItems (setValidGenerator (some [(2, 2)])) swStart).2.isOk = true := by
  refine ⟨by decide, fun p h => by cases h; rfl, by decide, by decide +kernel⟩
example (r : PkReport) : Accepts pktOps true r r := by simp [Accepts, pktOps]
-- the configuration of the output monitor does change
example : (swapRun true swCfg (.reset (List.replicate 16 .x) [.x]) .x true swCsr swTrace).map (fun r => r.1.highFirst) =
    [true, false, false, false, false, false, false, true, true, true, true] := by decide +kernel
-- the packets arrive, are counted, and the scoreboard agrees
example : (pkMonitorDyn (swapRun true swCfg (.reset (List.replicate 16 .x) [.x]) .x true swCsr swTrace) {}).1 =
    [⟨[1, 2, 3], none⟩, ⟨[4], none⟩, ⟨[5, 6], none⟩] := by decide +kernel
example : (swapAfter (.reset (List.replicate 16 .x) [.x]) swCsr swTrace).count = 3 := by decide +kernel
example : (playIo 0 1 0 id (swapTest swCfg (List.replicate 16 .x) [.x] .x true swCsr (fun k => k % 2 == 0) swTrace)
    (refBench pktOps true (fun _ => []) 0 1 0 (busMonitor none) true id)).sb.result = .ok () := by decide +kernel
-- without `sync` on the first packet, and start of packet 1 to begin with, the setter sees no edge of it: the packet is read in the wrong order
example : (pkMonitorDyn (swapRun true swCfg (.reset (List.replicate 16 .x) [.x]) .one false (fun _ => none)
    ((pkSendAll swCfg [⟨[1, 2], false, none⟩, ⟨[3], true, none⟩] (setValidGenerator none) swStart).1)) {}).1 = [⟨[2, 1], none⟩] := by decide +kernel

end CocotbBus
