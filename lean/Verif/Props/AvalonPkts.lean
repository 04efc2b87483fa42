import Verif.Proof.AvalonPktsMon
import Verif.Proof.Triple

/-! # Properties C34-C43, C77, C78: packetized Avalon-ST -/

namespace CocotbBus
open Spec Coro

/-- an 8n-bit bus with all optional signals -/
def exCfg (n : Nat) (hf : Bool) : PkCfg :=
  { width := 8 * n, hasReady := true, emptyW := some 2, channelW := some 3, highFirst := hf, maxChannel := 5, reportChannel := true }

theorem exCfg_bus : ByteBus (exCfg 4 true) 4 :=
  ⟨by decide, rfl, fun _ => ⟨2, rfl, by decide⟩, fun w h => by cases h; decide⟩

/-- inputs with ready and no reset -/
def rdy (l : Logic) : PkIn := { ready := l }

/-! ### C35 -/

/-- C35: for every list of non-empty packets, every valid generator state and every schedule: the accepted beats are those of
the packets, in order, up to some point, and all of them if the sends complete; a beat not accepted keeps all its
signals; no exception is raised. (`beatsOf` says what the beats of a packet are.) -/
theorem C35_framing (c : PkCfg) (n : Nat) (hb : ByteBus c n) (items : List PkItem)
    (hi : ∀ p ∈ items, p.pkt ≠ [] ∧ ChannelOk c p.channel) (v : Valids) (s : Sim PkIn PkOut) (hs : s.phase ≠ .ro) :
    let r := pkSendAll c items v s
    let beats := items.flatMap (fun p => beatsOf c n p.pkt (p.channel.getD 0).toNat)
    (pkStream c).taken r.1 <+: beats ∧
    (∀ v' s', r.2 = .ok v' s' → (pkStream c).taken r.1 = beats ∧ (items ≠ [] → s'.out.valid = .zero)) ∧
    (∀ e s', r.2 ≠ .err e s') ∧
    (pkStream c).Holds (pending r) := by
  obtain ⟨k, hk, h1, h2, h3, -, h4⟩ := pkSendAll_runs c n hb items hi v s hs
  refine ⟨?_, ?_, ?_, h3⟩
  · rw [h1]; exact List.take_prefix _ _
  · intro v' s' h
    rcases h4 with ⟨h4, -, -, v2, s2, h5, -, h6⟩ | ⟨h4, s2, h5, -⟩
    · rw [h] at h5
      cases h5
      exact ⟨by rw [h1, h4, List.take_length]; rfl, fun hne => h6.resolve_right (fun hh => hne hh.1)⟩
    · rw [h] at h5; cases h5
  · intro e s' h
    rcases h4 with ⟨h4, -, -, v2, s2, h5, -⟩ | ⟨h4, s2, h5, -⟩ <;> (rw [h] at h5; cases h5)

/-- C35: number of accepted beats of a packet: the length divided by the bus width, rounded up. -/
theorem C35_beat_count (c : PkCfg) (n : Nat) (hn : 0 < n) (pkt : Bytes) (ch : Nat) :
    (beatsOf c n pkt ch).length * n < pkt.length + n ∧ pkt.length ≤ (beatsOf c n pkt ch).length * n := by
  have h1 : (beatsOf c n pkt ch).length = beatCount n pkt.length := by simp [beatsOf]
  rw [h1, beatCount]
  have h2 := Nat.div_mul_le_self (pkt.length + n - 1) n
  have h3 := Nat.lt_div_mul_add (a := pkt.length + n - 1) hn
  omega

/-- C35, idle edges: before beat `j` of all beats there are as many edges with valid low as the generator's gap for word `j`,
plus the synchronisation edge if it is the first beat of a packet sent with `sync=True`. -/
theorem C35_gaps (c : PkCfg) (n : Nat) (hb : ByteBus c n) (items : List PkItem)
    (hi : ∀ p ∈ items, p.pkt ≠ [] ∧ ChannelOk c p.channel) (g : List (Nat × Nat)) (s : Sim PkIn PkOut) (hs : s.phase ≠ .ro) :
    let t := (pkSendAll c items (setValidGenerator (some g)) s).1
    let syncs := items.flatMap (fun p => syncEdges p.sync :: List.replicate (beatCount n p.pkt.length - 1) 0)
    (pkStream c).idleBefore 0 t =
      (List.zipWith (· + ·) syncs ((List.range syncs.length).map (gapAt (usable g)))).take ((pkStream c).taken t).length := by
  obtain ⟨k, hk, h1, h2, -⟩ := pkSendAll_runs c n hb items hi (setValidGenerator (some g)) s hs
  intro t syncs
  have hlen : (items.flatMap (fun p => beatsOf c n p.pkt (chNum p.channel))).length = syncs.length := by
    simp only [syncs, List.length_flatMap]
    congr 1
    apply List.map_congr_left
    intro p hp
    have := beatCount_pos n p.pkt.length hb.pos (List.length_pos_iff.2 (hi p hp).1)
    rw [beatsOf_eq, beatsFrom_length]
    simp; omega
  have h3 : (pkStream c).idleBefore 0 t = _ := h2
  rw [h3, show (pkStream c).taken t = _ from h1, itemGaps_eq n hb.pos items (fun p hp => (hi p hp).1), gaps_setValid,
    List.length_take, Nat.min_eq_left hk]
  rfl

/-- C35, progress: if the sink can take a beat at as many edges as there are beats and idle edges, the sends complete. -/
theorem C35_progress (c : PkCfg) (n : Nat) (hb : ByteBus c n) (items : List PkItem)
    (hi : ∀ p ∈ items, p.pkt ≠ [] ∧ ChannelOk c p.channel) (g : List (Nat × Nat)) (s : Sim PkIn PkOut) (hs : s.phase ≠ .ro)
    (hready :
      let syncs := items.flatMap (fun p => syncEdges p.sync :: List.replicate (beatCount n p.pkt.length - 1) 0)
      syncs.length + (List.zipWith (· + ·) syncs ((List.range syncs.length).map (gapAt (usable g)))).sum
        ≤ ((s.cur :: s.rest).dropLast.filter (fun i => (pkStream c).ready i)).length) :
    ∃ v' s', (pkSendAll c items (setValidGenerator (some g)) s).2 = .ok v' s' := by
  have h := pkSendAll_runs c n hb items hi (setValidGenerator (some g)) s hs
  obtain ⟨a, s', h1, -⟩ := Runs.progress (pkStream c) (Good.pkSendAll c items _) h (by
    have hlen : (items.flatMap (fun p => beatsOf c n p.pkt (chNum p.channel))).length = (items.flatMap (syncsOf n)).length := by
      simp only [List.length_flatMap]
      congr 1
      apply List.map_congr_left
      intro p hp
      have := beatCount_pos n p.pkt.length hb.pos (List.length_pos_iff.2 (hi p hp).1)
      rw [beatsOf_eq, beatsFrom_length]
      simp [syncsOf]; omega
    rw [hlen, itemGaps_eq n hb.pos items (fun p hp => (hi p hp).1), gaps_setValid]
    exact hready)
  exact ⟨a, s', h1⟩

/-- a 6-byte packet on a 4-byte bus: two beats, the second with two empty symbols -/
example : beatsOf (exCfg 4 true) 4 [1, 2, 3, 4, 5, 6] 5 =
    [⟨.one, .zero, natToBits 32 0x01020304, some (natToBits 2 0), some (natToBits 3 5)⟩,
     ⟨.zero, .one, natToBits 32 0x05060000, some (natToBits 2 2), some (natToBits 3 5)⟩] := by decide +kernel

/-- two packets against a sink that stalls -/
def exRun (hf : Bool) : Res PkIn PkOut Valids :=
  pkSendAll (exCfg 4 hf) [⟨[1, 2, 3, 4, 5, 6], true, some 5⟩, ⟨[7], false, none⟩] (setValidGenerator (some [(1, 2)]))
    ⟨.mid, ⟨.zero, .x, .x, List.replicate 32 .x, [.x, .x], [.x, .x, .x]⟩, rdy .one, rdy .one,
      [rdy .one, rdy .zero, rdy .x, rdy .one, rdy .one, rdy .one, rdy .one, rdy .one, rdy .one]⟩

example :
    let r := exRun true
    ((pkStream (exCfg 4 true)).taken r.1).length = 3 ∧ (pkStream (exCfg 4 true)).idleBefore 0 r.1 = [1, 2, 0] ∧
    r.2.isOk = true := by decide +kernel

/-! ### C36 -/

/-- C36: on every trace whose accepted beats (in-reset and idle edges ignored, wherever they are) are those of a sequence of
well-formed packets, the monitor reports exactly those packets. -/
theorem C36_decode (c : PkCfg) (n : Nat) (hn : 0 < n) (ps : List (Bytes × Option Nat × List PkOut))
    (h : ∀ p ∈ ps, PacketOn c n p.1 p.2.1 p.2.2) (t : List (PkOut × PkIn)) (hr : ∀ r ∈ t, ResetReadable r.2)
    (hnt : NoTimeout c t) (hp : beatsIn c t = ps.flatMap (fun p => p.2.2)) :
    ∃ st, pkMonitor c t {} = (ps.map (fun p => reportOf c p.1 p.2.1), .ok st) := by
  obtain ⟨st, h1⟩ := pkMonitor_packets c n hn ps h t hr hnt (by rw [hp]; exact List.prefix_refl _)
  refine ⟨st, h1.trans ?_⟩
  rw [hp, ended_packets c n ps h, List.take_of_length_le (by simp)]

/-- C36: a trace that stops anywhere in such a sequence: one report for every packet that ended. -/
theorem C36_decode_prefix (c : PkCfg) (n : Nat) (hn : 0 < n) (ps : List (Bytes × Option Nat × List PkOut))
    (h : ∀ p ∈ ps, PacketOn c n p.1 p.2.1 p.2.2) (t : List (PkOut × PkIn)) (hr : ∀ r ∈ t, ResetReadable r.2)
    (hnt : NoTimeout c t) (hp : beatsIn c t <+: ps.flatMap (fun p => p.2.2)) :
    ∃ st, pkMonitor c t {} = ((ps.map (fun p => reportOf c p.1 p.2.1)).take (ended (beatsIn c t)), .ok st) :=
  pkMonitor_packets c n hn ps h t hr hnt hp

/-- a packet that the driver would not produce: low symbol first, X in the empty symbols; idle and in-reset edges between
its beats -/
def exBeats : List PkOut :=
  [⟨.one, .one, .x, natToBits 16 0x0201, [.x], [.zero, .one, .zero]⟩,
   ⟨.one, .z, .one, [.x, .z, .x, .x, .x, .x, .x, .x, .zero, .zero, .zero, .zero, .zero, .zero, .one, .one], [.one], [.zero, .one, .zero]⟩]

/-- its bus -/
def exCfg2 : PkCfg :=
  { width := 16, hasReady := true, emptyW := some 1, channelW := some 3, highFirst := false, maxChannel := 5, reportChannel := true }

theorem exBeats_packet : PacketOn exCfg2 2 [1, 2, 3] (some 2) exBeats where
  shape := ⟨[([1, 2], exBeats[0])], [3], exBeats[1], rfl, rfl, by
      intro p hp
      rw [List.mem_singleton] at hp
      subst hp
      exact ⟨by decide, rfl, by decide +kernel, fun w _ => ⟨2, rfl, by decide +kernel⟩⟩,
    ⟨rfl, by decide, ⟨[.x, .z, .x, .x, .x, .x, .x, .x], rfl, by decide +kernel⟩,
      by rw [if_pos (show exCfg2.useEmpty = true by decide)]; exact ⟨1, by decide +kernel, rfl⟩,
      fun w _ => ⟨2, rfl, by decide +kernel⟩⟩⟩
  sop := by
    intro j o h
    match j, h with
    | 0, h => cases h; simp
    | 1, h => cases h; simp
    | j + 2, h => simp [exBeats] at h
  range := by intro x hx; cases hx; decide
  none := by intro h; cases h

example : (pkMonitor exCfg2 [(exBeats[0], { ready := .one, resetN := some [.one] }), (exBeats[0], { ready := .one, resetN := some [.zero] }),
    (exBeats[1], { ready := .z, resetN := some [.one] }), (exBeats[1], { ready := .one, resetN := some [.one] })] {}).1 =
    [⟨[1, 2, 3], some (some 2)⟩] := by decide +kernel

/-! ### C34 -/

/-- the records of a driver run carry the schedule's inputs -/
theorem sent_inputs {α : Type} {x : M PkIn PkOut α} (hg : Good x) (s : Sim PkIn PkOut)
    (hr : ∀ i ∈ s.cur :: s.rest, inReset i.resetN i.reset = .ok false) :
    ∀ r ∈ (x s).1, inReset r.2.resetN r.2.reset = .ok false := by
  intro r hm
  refine hr r.2 ?_
  rw [(hg s).1]
  exact List.mem_append_left _ (List.mem_map_of_mem hm)

/-- C34 (and the reporting part of C41): for every list of non-empty packets sent with acceptable channels, every valid
generator and every ready schedule, a monitor on the same bus with the same configuration reports exactly the packets
completed so far, and all of them if the sends completed. The bus has 8-bit symbols, is not in reset, and the monitor's
in-packet timeout, if any, does not expire. -/
theorem C34_roundtrip (c : PkCfg) (n : Nat) (hb : ByteBus c n) (h8 : c.bitsPerSymbol = 8) (items : List PkItem)
    (hi : ∀ p ∈ items, p.pkt ≠ [] ∧ ChannelOk c p.channel) (v : Valids) (s : Sim PkIn PkOut) (hs : s.phase ≠ .ro)
    (hreset : ∀ i ∈ s.cur :: s.rest, inReset i.resetN i.reset = .ok false)
    (hnt : NoTimeout c (pkSendAll c items v s).1) :
    let r := pkSendAll c items v s
    let reports := items.map (fun p => reportOf c p.pkt (c.channelW.map (fun _ => (p.channel.getD 0).toNat)))
    ∃ st, pkMonitor c r.1 {} = (reports.take (ended (beatsIn c r.1)), .ok st) ∧
      (∀ v' s', r.2 = .ok v' s' → pkMonitor c r.1 {} = (reports, .ok st)) := by
  obtain ⟨k, hk, h1, -, -, -, h4⟩ := pkSendAll_runs c n hb items hi v s hs
  obtain ⟨⟨st, h5⟩, h6⟩ := pkMonitor_driver c n hb items (fun p hp => ⟨(hi p hp).1, (hi p hp).2, .inl h8⟩) _
    (sent_inputs (Good.pkSendAll c items v) s hreset) hnt k h1
  refine ⟨st, h5, fun v' s' h => ?_⟩
  rcases h4 with ⟨h4, -⟩ | ⟨-, s2, h4, -⟩
  · refine h5.trans ?_
    rw [h6 (by omega), List.take_of_length_le (by simp)]
    rfl
  · rw [h] at h4; cases h4

/-- C34: with the default configuration there is no timeout to exclude -/
theorem C34_default_no_timeout (c : PkCfg) (h : c.invalidTimeout = 0) (t : List (PkOut × PkIn)) : NoTimeout c t := .inl h

example : (pkMonitor (exCfg 4 true) (exRun true).1 {}).1 = [⟨[1, 2, 3, 4, 5, 6], some (some 5)⟩, ⟨[7], some (some 0)⟩] ∧
    (pkMonitor (exCfg 4 false) (exRun false).1 {}).1 = [⟨[1, 2, 3, 4, 5, 6], some (some 5)⟩, ⟨[7], some (some 0)⟩] := by decide +kernel

/-! ### C37 -/

/-- C37: a second start of packet while a packet is open raises AvalonProtocolError at that cycle, whatever the (error-free)
history and whatever follows; nothing more is reported. -/
theorem C37_duplicate_sop (c : PkCfg) (a b : List (PkOut × PkIn)) (r : PkOut × PkIn) (l : List PkReport) (st : PkState) (o : PkOut)
    (h : pkMonitor c a {} = (l, .ok st)) (hd : ∀ o ∈ beatsIn c a, o.data ≠ []) (hr : ResetReadable r.2) (he : eventAt c r = .beat o)
    (hopen : openBeats (beatsIn c a) ≠ []) (hsop : o.sop = .one) :
    pkMonitor c (a ++ r :: b) {} = (l, .error (.avalonProtocol "duplicate start-of-packet")) := by
  refine pkMonitor_error c a b r l st _ h ?_
  have hp : st.pkt ≠ [] := fun hh => hopen ((monInv c a hd l st h).pkt.1 hh)
  rw [pkStep_beat c st r hr o he, pkBeatStep, if_pos ⟨hsop, hp⟩]

/-- C37: a beat without start of packet while no packet is open raises AvalonProtocolError at that cycle. -/
theorem C37_outside_packet (c : PkCfg) (a b : List (PkOut × PkIn)) (r : PkOut × PkIn) (l : List PkReport) (st : PkState) (o : PkOut)
    (h : pkMonitor c a {} = (l, .ok st)) (hd : ∀ o ∈ beatsIn c a, o.data ≠ []) (hr : ResetReadable r.2) (he : eventAt c r = .beat o)
    (hopen : openBeats (beatsIn c a) = []) (hsop : o.sop ≠ .one) :
    pkMonitor c (a ++ r :: b) {} = (l, .error (.avalonProtocol "data outside of packet")) := by
  refine pkMonitor_error c a b r l st _ h ?_
  have hp : st.inPkt = false := by
    cases hh : st.inPkt with
    | false => rfl
    | true => exact absurd hopen ((monInv c a hd l st h).inPkt.1 hh)
  rw [pkStep_beat c st r hr o he, pkBeatStep]
  simp [hsop, hp]

/-- C37: a packet starting on a channel above maxChannel raises at that cycle and is not reported; the exception is
AvalonProtocolError unless the data of that beat cannot be read either. -/
theorem C37_channel_too_big (c : PkCfg) (a b : List (PkOut × PkIn)) (r : PkOut × PkIn) (l : List PkReport) (st : PkState) (o : PkOut)
    (h : pkMonitor c a {} = (l, .ok st)) (hd : ∀ o ∈ beatsIn c a, o.data ≠ []) (hr : ResetReadable r.2) (he : eventAt c r = .beat o)
    (hopen : openBeats (beatsIn c a) = []) (hsop : o.sop = .one) (w : Nat) (hw : c.channelW = some w) (x : Nat)
    (hx : toUnsigned o.channel = .ok x) (hmax : c.maxChannel < x) :
    ∃ e, pkMonitor c (a ++ r :: b) {} = (l, .error e) ∧ (Decodable c o → e = .avalonProtocol "channel too big") := by
  have hinv := monInv c a hd l st h
  obtain ⟨e, h1, h2⟩ := beatStep_channel c { st with invalidCount := 0 } o (.inl ⟨hsop, hinv.pkt.2 hopen⟩)
    (.avalonProtocol "channel too big") (by
      simp only [pkCheckChannel, hw, hx, hinv.chNone (.inl hopen)]
      rw [if_pos hmax])
  exact ⟨e, pkMonitor_error c a b r l st e h (by rw [pkStep_beat c st r hr o he, h1]), h2⟩

/-- C37: a channel that differs from that of an earlier beat of the packet raises at that cycle and the packet is not reported;
the exception is AvalonProtocolError unless the data of that beat cannot be read either. -/
theorem C37_channel_changed (c : PkCfg) (a b : List (PkOut × PkIn)) (r : PkOut × PkIn) (l : List PkReport) (st : PkState) (o f : PkOut)
    (h : pkMonitor c a {} = (l, .ok st)) (hd : ∀ o ∈ beatsIn c a, o.data ≠ []) (hr : ResetReadable r.2) (he : eventAt c r = .beat o)
    (hf : f ∈ openBeats (beatsIn c a)) (hsop : o.sop ≠ .one) (w : Nat) (hw : c.channelW = some w) (x y : Nat)
    (hx : toUnsigned o.channel = .ok x) (hy : toUnsigned f.channel = .ok y) (hne : x ≠ y) :
    ∃ e, pkMonitor c (a ++ r :: b) {} = (l, .error e) ∧ (Decodable c o → e = .avalonProtocol "channel changed") := by
  have hinv := monInv c a hd l st h
  obtain ⟨z, hz1, hz2⟩ := hinv.chSome w hw f hf
  rw [hy] at hz1
  cases hz1
  obtain ⟨e, h1, h2⟩ := beatStep_channel c { st with invalidCount := 0 } o
    (.inr ⟨hsop, hinv.inPkt.2 (List.ne_nil_of_mem hf)⟩) (.avalonProtocol "channel changed") (by
      simp only [pkCheckChannel, hw, hx, hz2]
      rw [if_pos hne])
  exact ⟨e, pkMonitor_error c a b r l st e h (by rw [pkStep_beat c st r hr o he, h1]), h2⟩

/-- C37, no false alarms: an error other than the timeout is raised at a beat. -/
theorem C37_only_at_beats (c : PkCfg) (a : List (PkOut × PkIn)) (r : PkOut × PkIn) (l : List PkReport) (st : PkState) (e : PyErr)
    (h : pkMonitor c a {} = (l, .ok st)) (hr : ResetReadable r.2) (he : (pkMonitor c (a ++ [r]) {}).2 = .error e)
    (hnt : e ≠ .avalonProtocol "timeout") : ∃ o, eventAt c r = .beat o := by
  rw [pkMonitor_snoc c a r _ _ _ h] at he
  cases hev : eventAt c r with
  | beat o => exact ⟨o, rfl⟩
  | reset => rw [pkStep_reset c st r hev] at he; cases he
  | idle =>
    rw [pkStep_idle c st r hr hev] at he
    split at he
    · rename_i x hx
      split at hx
      · split at hx
        · cases hx; cases he; exact absurd rfl hnt
        · cases hx
      · cases hx
    · cases he

/-- a history with an open packet on channel 2 -/
example : (pkMonitor exCfg2 [(exBeats[0], rdy .one)] {}).2 = .ok ⟨[1, 2], true, 0, some 2, false⟩ ∧
    openBeats (beatsIn exCfg2 [(exBeats[0], rdy .one)]) = [exBeats[0]] ∧
    eventAt exCfg2 (exBeats[0], rdy .one) = .beat exBeats[0] := by decide +kernel

/-! ### C38 -/

/-- C38: after every error-free history the timeout is raised at the next edge exactly when a packet is open, a timeout `T > 0` is
configured, and with this edge there have been `T` idle edges (neither in reset nor a transfer) since the last beat. -/
theorem C38_timeout (c : PkCfg) (a : List (PkOut × PkIn)) (r : PkOut × PkIn) (l : List PkReport) (st : PkState)
    (h : pkMonitor c a {} = (l, .ok st)) (hd : ∀ o ∈ beatsIn c a, o.data ≠ []) (hr : ResetReadable r.2) :
    pkMonitor c (a ++ [r]) {} = (l, .error (.avalonProtocol "timeout")) ↔
      eventAt c r = .idle ∧ openBeats (beatsIn c a) ≠ [] ∧ c.invalidTimeout ≠ 0 ∧ idleSince c 0 (a ++ [r]) = c.invalidTimeout := by
  have hinv := monInv c a hd l st h
  rw [pkMonitor_snoc c a r _ _ _ h]
  cases hev : eventAt c r with
  | reset => rw [pkStep_reset c st r hev]; simp
  | beat o =>
    rw [pkStep_beat c st r hr o hev]
    simp only [reduceCtorEq, false_and, iff_false]
    intro hh
    split at hh
    · rename_i e he
      simp only [Prod.mk.injEq, Except.error.injEq, true_and] at hh
      subst hh
      exact beatStep_not_timeout c _ o he
    · simp at hh
  | idle =>
    rw [pkStep_idle c st r hr hev, idleSince_snoc, hev]
    simp only [true_and]
    cases hip : st.inPkt with
    | false =>
      have : openBeats (beatsIn c a) = [] := by
        by_contra hne
        rw [hinv.inPkt.2 hne] at hip; cases hip
      simp [this]
    | true =>
      have hne := hinv.inPkt.1 hip
      have hcnt := hinv.count hne
      simp only [if_true, hne, ne_eq, not_false_eq_true, true_and]
      by_cases ht : c.invalidTimeout = 0
      · simp [ht]
      · have hb := hinv.bound ht hne
        by_cases hT : idleSince c 0 a + 1 = c.invalidTimeout
        · have : c.invalidTimeout ≤ st.invalidCount + 1 := by omega
          simp [ht, hT, this]
        · have : ¬ (c.invalidTimeout ≤ st.invalidCount + 1) := by omega
          simp [ht, hT, this]

/-- two idle edges in the packet with timeout 2 -/
example : (pkMonitor { exCfg2 with invalidTimeout := 2 } [(exBeats[0], rdy .one), (exBeats[0], rdy .zero)] {}).2 =
      .ok ⟨[1, 2], true, 1, some 2, false⟩ ∧
    (pkMonitor { exCfg2 with invalidTimeout := 2 } [(exBeats[0], rdy .one), (exBeats[0], rdy .zero), (exBeats[0], rdy .x)] {}).2 =
      .error (.avalonProtocol "timeout") := by decide +kernel

/-! ### C39 -/

/-- what happens at a correctly framed last beat with X or Z outside its empty symbols -/
theorem last_beat_bad (c : PkCfg) (a b : List (PkOut × PkIn)) (r : PkOut × PkIn) (l : List PkReport) (st : PkState) (o : PkOut)
    (h : pkMonitor c a {} = (l, .ok st)) (hd : ∀ o ∈ beatsIn c a, o.data ≠ []) (hr : ResetReadable r.2) (he : eventAt c r = .beat o)
    (hf : o.sop = .one ↔ openBeats (beatsIn c a) = []) (heop : o.eop = .one) (e : Nat) (hem : EmptyIs c o e)
    (hx : isResolvable (unmasked c e o) = false) :
    pkMonitor c (a ++ r :: b) {} = (l, .error (if (st.emptyBound || e != 0) then .avalonProtocol "bad value" else .unboundLocal)) := by
  have hinv := monInv c a hd l st h
  refine pkMonitor_error c a b r l st _ h ?_
  rw [pkStep_beat c st r hr o he, beatStep_framed c _ o (by
    by_cases hs : o.sop = .one
    · exact .inl ⟨hs, hinv.pkt.2 (hf.1 hs)⟩
    · exact .inr ⟨hs, hinv.inPkt.2 (fun hh => hs (hf.2 hh))⟩)]
  simp only [heop, ne_eq, not_true_eq_false, if_false]
  rw [pkLast_bad c o _ e hem hx]

/-- C39, proved part: if this last beat, or an earlier one, has a nonzero number of empty symbols, a last beat with X or Z outside its
empty symbols raises AvalonProtocolError. Missing: the other histories (`C39_violated`). -/
theorem C39_empty_used_partial (c : PkCfg) (a b : List (PkOut × PkIn)) (r : PkOut × PkIn) (l : List PkReport) (st : PkState) (o : PkOut)
    (h : pkMonitor c a {} = (l, .ok st)) (hd : ∀ o ∈ beatsIn c a, o.data ≠ []) (hr : ResetReadable r.2) (he : eventAt c r = .beat o)
    (hf : o.sop = .one ↔ openBeats (beatsIn c a) = []) (heop : o.eop = .one) (e : Nat) (hem : EmptyIs c o e)
    (hx : isResolvable (unmasked c e o) = false) (hseen : e ≠ 0 ∨ emptySeen c (beatsIn c a)) :
    pkMonitor c (a ++ r :: b) {} = (l, .error (.avalonProtocol "bad value")) := by
  rw [last_beat_bad c a b r l st o h hd hr he hf heop e hem hx]
  rcases hseen with hs | hs
  · simp [hs]
  · simp [(monInv c a hd l st h).emptyBound.2 hs]

/-- C39 is false of the code: in every other history the exception is UnboundLocalError (the message refers to a variable that
has not been assigned). -/
theorem C39_unbound (c : PkCfg) (a b : List (PkOut × PkIn)) (r : PkOut × PkIn) (l : List PkReport) (st : PkState) (o : PkOut)
    (h : pkMonitor c a {} = (l, .ok st)) (hd : ∀ o ∈ beatsIn c a, o.data ≠ []) (hr : ResetReadable r.2) (he : eventAt c r = .beat o)
    (hf : o.sop = .one ↔ openBeats (beatsIn c a) = []) (heop : o.eop = .one) (hem : EmptyIs c o 0)
    (hx : isResolvable (unmasked c 0 o) = false) (hseen : ¬ emptySeen c (beatsIn c a)) :
    pkMonitor c (a ++ r :: b) {} = (l, .error .unboundLocal) := by
  rw [last_beat_bad c a b r l st o h hd hr he hf heop 0 hem hx]
  have : st.emptyBound = false := by
    cases hh : st.emptyBound with
    | false => rfl
    | true => exact absurd ((monInv c a hd l st h).emptyBound.1 hh) hseen
  simp [this]

/-- C39 is false of the code: a single-beat packet with an X and no empty symbols. -/
theorem C39_violated : ∃ (c : PkCfg) (r : PkOut × PkIn), eventAt c r = .beat r.1 ∧ r.1.sop = .one ∧ r.1.eop = .one ∧
    EmptyIs c r.1 0 ∧ isResolvable r.1.data = false ∧ (pkMonitor c [r] {}).2 = .error .unboundLocal :=
  ⟨exCfg2, (⟨.one, .one, .one, .x :: List.replicate 15 .zero, [.zero], [.zero, .zero, .zero]⟩, rdy .one), by decide +kernel, rfl, rfl,
    by rw [EmptyIs, if_pos (by decide)]; decide +kernel, by decide, by decide +kernel⟩

/-- the hypotheses of the proved part: one empty symbol, X in the other -/
example : (pkMonitor exCfg2 [((⟨.one, .one, .one, List.replicate 16 .x, [.one], [.zero, .zero, .zero]⟩ : PkOut), rdy .one)] {}).2 =
    .error (.avalonProtocol "bad value") := by decide +kernel

/-! ### C40 -/

/-- C40 is false of the code: whenever a reset, however long, comes while a packet is open, the start of the next packet raises
AvalonProtocolError instead of being accepted. -/
theorem C40_reset_keeps_packet (c : PkCfg) (a rs b : List (PkOut × PkIn)) (r : PkOut × PkIn) (l : List PkReport) (st : PkState) (o : PkOut)
    (h : pkMonitor c a {} = (l, .ok st)) (hd : ∀ o ∈ beatsIn c a, o.data ≠ []) (hopen : openBeats (beatsIn c a) ≠ [])
    (hrs : ∀ q ∈ rs, eventAt c q = .reset) (hr : ResetReadable r.2) (he : eventAt c r = .beat o) (hsop : o.sop = .one) :
    pkMonitor c (a ++ rs ++ r :: b) {} = (l, .error (.avalonProtocol "duplicate start-of-packet")) := by
  have hb : beatsIn c (a ++ rs) = beatsIn c a := by
    rw [beatsIn, List.filterMap_append]
    have : rs.filterMap (fun r => (eventAt c r).beat?) = [] := by
      rw [List.filterMap_eq_nil_iff]
      intro q hq
      rw [hrs q hq]; rfl
    rw [this, List.append_nil]; rfl
  have hm : pkMonitor c (a ++ rs) {} = (l, .ok st) := by
    rw [pkMonitor_append c rs a _ _ _ h]
    have : ∀ rs : List (PkOut × PkIn), (∀ q ∈ rs, eventAt c q = .reset) → pkMonitor c rs st = ([], .ok st) := by
      intro rs
      induction rs with
      | nil => intro _; rfl
      | cons q rs ih =>
        intro hq
        obtain ⟨o, i⟩ := q
        simp only [pkMonitor]
        rw [pkStep_reset c st (o, i) (hq (o, i) (by simp))]
        simp only
        rw [ih (fun q' hq' => hq q' (by simp [hq']))]
        rfl
    rw [this rs hrs]
    simp
  exact C37_duplicate_sop c (a ++ rs) b r l st o hm (by rw [hb]; exact hd) hr he (by rw [hb]; exact hopen) hsop

/-- C40 is false of the code: half a packet, reset, a complete packet: an error, and nothing reported. -/
theorem C40_violated : ∃ (c : PkCfg) (first : PkOut) (whole : List PkOut), PacketOn c 2 [1, 2, 3] (some 2) whole ∧
    whole.head? = some first ∧
    pkMonitor c ([(first, ⟨.one, some [.one], none⟩), (first, ⟨.one, some [.zero], none⟩)] ++
      whole.map (fun o => (o, ⟨.one, some [.one], none⟩))) {} = ([], .error (.avalonProtocol "duplicate start-of-packet")) :=
  ⟨exCfg2, exBeats[0], exBeats, exBeats_packet, rfl, by decide +kernel⟩

/-- C40, proved part: a reset between packets loses nothing: packets completed before it and packets after it are all
reported. Missing: a reset while a packet is open (`C40_reset_keeps_packet`). -/
theorem C40_reset_between_packets_partial (c : PkCfg) (n : Nat) (hn : 0 < n) (ps qs : List (Bytes × Option Nat × List PkOut))
    (hps : ∀ p ∈ ps ++ qs, PacketOn c n p.1 p.2.1 p.2.2) (a rs b : List (PkOut × PkIn))
    (hr : ∀ r ∈ a ++ rs ++ b, ResetReadable r.2) (hnt : NoTimeout c (a ++ rs ++ b)) (hrs : ∀ q ∈ rs, eventAt c q = .reset)
    (ha : beatsIn c a = ps.flatMap (fun p => p.2.2)) (hb : beatsIn c b = qs.flatMap (fun p => p.2.2)) :
    ∃ st, pkMonitor c (a ++ rs ++ b) {} = ((ps ++ qs).map (fun p => reportOf c p.1 p.2.1), .ok st) := by
  refine C36_decode c n hn (ps ++ qs) hps _ hr hnt ?_
  have h1 : beatsIn c rs = [] := by
    rw [beatsIn, List.filterMap_eq_nil_iff]
    intro q hq
    rw [hrs q hq]; rfl
  rw [List.flatMap_append, ← ha, ← hb]
  unfold beatsIn at *
  rw [List.filterMap_append, List.filterMap_append, h1, List.append_nil]

/-! ### C41 -/

/-- C41: every accepted beat of a packet sent on channel `x` carries `x`. -/
theorem C41_wire (c : PkCfg) (n : Nat) (hb : ByteBus c n) (w : Nat) (hw : c.channelW = some w) (pkt : Bytes) (hne : pkt ≠ []) (sync : Bool)
    (x : Nat) (hx : x ≤ c.maxChannel) (v : Valids) (s : Sim PkIn PkOut) (hs : s.phase ≠ .ro) :
    ∀ b ∈ (pkStream c).taken (pkSend c pkt sync (some (x : Int)) v s).1, ∃ bits, b.channel = some bits ∧ toUnsigned bits = .ok x := by
  have hc : ChannelOk c (some (x : Int)) := by
    unfold ChannelOk; rw [hw]; simp only; omega
  obtain ⟨k, hk, h1, -⟩ := pkSend_runs c n hb pkt hne sync (some (x : Int)) hc v s hs
  intro b hbm
  rw [h1] at hbm
  have hbm := List.mem_of_mem_take hbm
  unfold beatsOf at hbm
  obtain ⟨j, -, rfl⟩ := List.mem_map.1 hbm
  have := hb.channel w hw
  refine ⟨natToBits w x, by simp [hw, chNum], toUnsigned_natToBits _ _ (by omega)⟩

/-- C41: reported with the packet by a `report_channel` monitor. -/
theorem C41_reported (c : PkCfg) (n : Nat) (hb : ByteBus c n) (h8 : c.bitsPerSymbol = 8) (w : Nat) (hw : c.channelW = some w)
    (hrep : c.reportChannel = true) (items : List (Bytes × Bool × Nat))
    (hi : ∀ p ∈ items, p.1 ≠ [] ∧ p.2.2 ≤ c.maxChannel) (v : Valids) (s : Sim PkIn PkOut) (hs : s.phase ≠ .ro)
    (hreset : ∀ i ∈ s.cur :: s.rest, inReset i.resetN i.reset = .ok false) (hnt : c.invalidTimeout = 0) :
    let r := pkSendAll c (items.map (fun p => ⟨p.1, p.2.1, some (p.2.2 : Int)⟩)) v s
    ∀ v' s', r.2 = .ok v' s' → (pkMonitor c r.1 {}).1 = items.map (fun p => ⟨p.1, some (some p.2.2)⟩) := by
  intro r v' s' h
  obtain ⟨st, -, h2⟩ := C34_roundtrip c n hb h8 (items.map (fun p => ⟨p.1, p.2.1, some (p.2.2 : Int)⟩)) (by
    intro p hp
    obtain ⟨q, hq, rfl⟩ := List.mem_map.1 hp
    obtain ⟨h3, h4⟩ := hi q hq
    refine ⟨h3, ?_⟩
    unfold ChannelOk; rw [hw]; simp only; omega) v s hs hreset (.inl hnt)
  rw [h2 v' s' h]
  simp [reportOf, hrep, hw]

/-- C41: a channel argument on a bus without channel signal: AssertionError, and valid stays low. -/
theorem C41_no_channel_signal (c : PkCfg) (hw : c.channelW = none) (pkt : Bytes) (sync : Bool) (x : Int) (v : Valids) (s : Sim PkIn PkOut)
    (hs : s.phase ≠ .ro) : ∃ m s', pkSend c pkt sync (some x) v s = ([], .err (.assertion m) s') ∧ s'.out.valid = .zero := by
  refine ⟨"no channel signal", { s with out := pkDefaults c s.out }, ?_, rfl⟩
  unfold pkSend
  rw [bind_write _ _ _ hs, hw]
  rfl

/-- the gap of the packet driver -/
theorem Triple.pkGap {P : Sim PkIn PkOut → Prop} {E : PyErr → Sim PkIn PkOut → Prop} (v : Valids) (hP : ∀ s, P s → s.phase ≠ .ro ∧ s.out.valid = .zero) :
    Triple P (fun r => r.1.valid = .zero) (gapM pkLower v) (fun _ s => s.phase ≠ .ro ∧ s.out.valid = .zero) E (fun _ => True) := by
  refine Triple.ite (fun _ => ?_) (fun _ => Triple.pure _ hP)
  refine Triple.bind (S := fun _ s => s.phase ≠ .ro ∧ s.out.valid = .zero) (Triple.write _ (fun s hs => (hP s hs).1) (fun s hs => ⟨(hP s hs).1, rfl⟩)) fun _ => ?_
  refine Triple.bind (Triple.edges (Inv := fun s : Sim PkIn PkOut => s.phase ≠ .ro ∧ s.out.valid = .zero) (fun s hs => hs.2) (fun s _ => trivial)
    (fun s i r hs _ => ⟨by simp, hs.2⟩) _) fun _ => ?_
  exact Triple.pure _ (fun s hs => hs)

/-- C41: for every packet, valid generator and schedule, a send with an out-of-range channel raises AssertionError without any beat having been
valid at an edge (or is still waiting for its first edge); but valid has been raised and is left at 1. -/
theorem C41_out_of_range (c : PkCfg) (w : Nat) (hw : c.channelW = some w) (pkt : Bytes) (hne : pkt ≠ []) (sync : Bool) (x : Int)
    (hx : x < 0 ∨ x > c.maxChannel) (v : Valids) (s : Sim PkIn PkOut) (hs : s.phase ≠ .ro) :
    let r := pkSend c pkt sync (some x) v s
    (∀ q ∈ r.1, q.1.valid = .zero) ∧
    (∀ v' s', r.2 ≠ .ok v' s') ∧
    (∀ e s', r.2 = .err e s' → (∃ m, e = .assertion m) ∧ s'.out.valid = .one) := by
  have key : Triple (fun s : Sim PkIn PkOut => s.phase ≠ .ro) (fun r => r.1.valid = .zero) (pkSend c pkt sync (some x) v) (fun _ _ => False)
      (fun e s' => (∃ m, e = .assertion m) ∧ s'.out.valid = .one) (fun _ => True) := by
    unfold pkSend
    refine Triple.bind (S := fun _ s => s.phase ≠ .ro ∧ s.out.valid = .zero) (Triple.write _ (fun s hs => hs) (fun s hs => ⟨hs, rfl⟩)) fun _ => ?_
    refine Triple.bind (S := fun _ s => s.phase ≠ .ro ∧ s.out.valid = .zero)
      (Triple.when _ (fun h => by simp [hw] at h) (fun _ s hs => hs)) fun _ => ?_
    cases pkt with
    | nil => exact absurd rfl hne
    | cons a r =>
      refine Triple.bind (S := fun _ _ => False) ?_ fun _ => ⟨fun s hs => hs.elim, fun s hs => hs.elim, fun s hs => hs.elim, fun s hs => hs.elim⟩
      refine Triple.bind (S := fun _ s => s.phase ≠ .ro ∧ s.out.valid = .zero) (Triple.when _ (fun _ => Triple.awaitEdge (fun s hs => hs.2)
        (fun _ _ _ => trivial) (fun s i r hs _ => ⟨by simp, hs.2⟩)) (fun _ s hs => hs)) fun _ => ?_
      refine Triple.bind (S := fun _ _ => False) ?_ fun _ => ⟨fun s hs => hs.elim, fun s hs => hs.elim, fun s hs => hs.elim, fun s hs => hs.elim⟩
      unfold pkBeat
      refine Triple.bind (Triple.pkGap v (fun s hs => hs)) fun _ => ?_
      refine Triple.bind (S := fun _ s => s.out.valid = .one) (Triple.write _ (fun s hs => hs.1) (fun s hs => rfl)) fun _ => ?_
      refine Triple.bind (S := fun _ _ => False) ?_ fun _ => ⟨fun s hs => hs.elim, fun s hs => hs.elim, fun s hs => hs.elim, fun s hs => hs.elim⟩
      unfold pkChannel
      rw [hw]
      simp only
      exact Triple.ite (fun _ => Triple.raise _ (fun s hs => ⟨⟨_, rfl⟩, hs⟩)) (fun h => absurd (show x > c.maxChannel ∨ x < 0 by omega) h)
  exact ⟨key.records s hs, fun v' s' h => key.ok s hs v' s' h, key.err s hs⟩

/-- C41 is false of the code in its last part: after the rejected send the sink sees a valid beat at the next edge. -/
theorem C41_violated : ∃ (c : PkCfg) (s s' : Sim PkIn PkOut) (m : String), s.out.valid = .zero ∧
    pkSend c [1] false (some 9) (setValidGenerator none) s = ([], .err (.assertion m) s') ∧ s'.out.valid = .one :=
  ⟨exCfg 4 true, ⟨.mid, ⟨.zero, .x, .x, [], [], []⟩, rdy .one, rdy .one, []⟩, _, _, rfl, rfl, rfl⟩

/-! ### C42 -/

/-- C42 is false of the code: sending an iterable changes no signal except valid, whatever the words and the schedule. -/
theorem C42_no_signal_driven (c : PkCfg) (words : List PkWord) (sync : Bool) (ch : Option Int) (v : Valids) (s : Sim PkIn PkOut) :
    let r := pkDriverSend c (.words words) sync ch v s
    ∀ o ∈ r.1.map Prod.fst ++ [r.2.sim.out], { o with valid := s.out.valid } = s.out := by
  have hw : ∀ v : Valids, Keeps (fun o : PkOut => { o with valid := s.out.valid } = s.out) (gapM pkLower v : M PkIn PkOut Valids) := by
    intro v
    refine Keeps.ite (Keeps.bind (Keeps.write _ ?_) fun _ => Keeps.bind (Keeps.edges _) fun _ => Keeps.pure _) (Keeps.pure _)
    intro o ho; rw [← ho]; rfl
  have hword : ∀ w v, Keeps (fun o : PkOut => { o with valid := s.out.valid } = s.out) (pkWord c w v) := by
    intro w v
    refine Keeps.bind (hw v) fun _ => ?_
    have hrest : ∀ v' : Valids, Keeps (fun o : PkOut => { o with valid := s.out.valid } = s.out)
        (when (w.valid.getD true && c.hasReady) pkWaitReady >>= fun _ => (pure v' : M PkIn PkOut Valids)) :=
      fun v' => Keeps.bind (Keeps.when _ (Keeps.waitRO _)) fun _ => Keeps.pure _
    cases hv : w.valid with
    | none => rw [hv] at hrest; exact Keeps.bind (Keeps.write _ (fun o ho => by rw [← ho])) fun _ => hrest _
    | some b => rw [hv] at hrest; exact hrest _
  have hwords : ∀ (l : List PkWord) (b : Bool) v, Keeps (fun o : PkOut => { o with valid := s.out.valid } = s.out) (pkWords c l b v) := by
    intro l
    induction l with
    | nil => intro b v; exact Keeps.pure _
    | cons w r ih => intro b v; exact Keeps.bind (Keeps.when _ Keeps.awaitEdge) fun _ => Keeps.bind (hword w v) fun _ => ih true _
  have hall : Keeps (fun o : PkOut => { o with valid := s.out.valid } = s.out) (pkSendWords c words sync v) := by
    refine Keeps.bind (hwords words sync v) fun _ => Keeps.bind Keeps.awaitEdge fun _ => Keeps.bind (Keeps.write _ ?_) fun _ => Keeps.pure _
    intro o ho; rw [← ho]
  obtain ⟨h1, h2⟩ := hall s rfl
  intro r o ho
  rcases List.mem_append.1 ho with ho | ho
  · obtain ⟨q, hq, rfl⟩ := List.mem_map.1 ho
    exact h1 q hq
  · rw [List.mem_singleton] at ho
    subst ho
    exact h2

/-- C42 is false of the code: a word without `valid` attribute is accepted with the old data; a word with `valid` attribute
is not offered at all. -/
theorem C42_violated : ∃ (c : PkCfg) (w1 w2 : PkWord) (s : Sim PkIn PkOut), w1.data = some (natToBits 8 1) ∧ w1.valid = none ∧
    w2.data = some (natToBits 8 2) ∧ w2.valid = some true ∧
    ((pkStream c).taken (pkDriverSend c (.words [w1]) true none (setValidGenerator none) s).1).map (fun b => b.data) = [natToBits 8 0] ∧
    (pkStream c).taken (pkDriverSend c (.words [w2]) true none (setValidGenerator none) s).1 = [] := by
  refine ⟨{ width := 8, hasReady := true, emptyW := none, channelW := none }, { data := some (natToBits 8 1) },
    { valid := some true, data := some (natToBits 8 2) },
    ⟨.mid, ⟨.zero, .zero, .zero, natToBits 8 0, [], []⟩, rdy .one, rdy .one, [rdy .one, rdy .one, rdy .one]⟩, rfl, rfl, rfl, rfl, ?_, ?_⟩ <;>
  decide +kernel

/-- one word without `valid` attribute, and the edge after it -/
theorem pkWord_offers (c : PkCfg) (w : PkWord) (hw : w.valid = none) (p : Beat) (v : Valids) (s : Sim PkIn PkOut) (hs : s.phase ≠ .ro)
    (hp : (pkStream c).payload s.out = p) :
    Offers (pkStream c) p (gapStep v).1 ((pkWord c w v >>= fun x => awaitEdge >>= fun _ => pure x) s)
      (fun x s' => s'.phase = .edge ∧ x = (gapStep v).2 ∧ (pkStream c).payload s'.out = p) := by
  unfold pkWord
  simp only [hw, bind_assoc, pure_bind, Option.getD_none, Bool.true_and]
  refine offers_gap (pkStream c) pkLower (fun _ => rfl) v hs (fun t ht hto => ?_)
  have htp : (pkStream c).payload t.out = p := by rw [hto, ← hp]; split <;> rfl
  rw [bind_write _ _ _ ht]
  obtain ⟨idle, held, k1, k2, k3⟩ := offers_wait (pkStream c) c.hasReady (fun i => i.ready == .one) (fun i => rfl) p
      ({ t with out := { t.out with valid := .one } }) (by exact ht) rfl htp
      (fun _ s' => s'.phase = .edge ∧ (pkStream c).payload s'.out = p)
      (fun s' h1 h2 => ⟨h2, by rw [h1]; exact htp⟩)
  have hbind : ∀ u : Sim PkIn PkOut, (do
        when c.hasReady pkWaitReady
        awaitEdge
        pure (gapStep v).2 : M PkIn PkOut Valids) u =
      ((when c.hasReady (waitRO (fun i => .ok (i.ready == .one))) >>= fun _ => awaitEdge) >>= fun _ => pure (gapStep v).2) u := by
    intro u
    rw [bind_assoc_run]
    rfl
  refine ⟨idle, held, k1, k2, ?_⟩
  rw [hbind, bind_run]
  rcases k3 with ⟨s', a, b, d⟩ | ⟨hl, ⟨s', a, b⟩ | ⟨q, x, s', a, b, d, e, f⟩⟩
  · exact .inl ⟨s', by rw [a]; rfl, b, d⟩
  · exact .inr ⟨hl, .inl ⟨s', by rw [a]; rfl, b⟩⟩
  · refine .inr ⟨hl, .inr ⟨q, (gapStep v).2, s', ?_, b, d, e, f.1, rfl, f.2⟩⟩
    rw [a, andThen_ok, pure_run]; simp

/-- a word and those after it -/
theorem pkWords_runs (c : PkCfg) (p : Beat) (words : List PkWord) : ∀ (w : PkWord), (∀ x ∈ w :: words, x.valid = none) →
    ∀ (v : Valids) (s : Sim PkIn PkOut), s.phase ≠ .ro → (pkStream c).payload s.out = p →
    Runs (pkStream c) (List.replicate (words.length + 1) p) (gaps (words.length + 1) v)
      ((pkWord c w v >>= fun v => pkWords c words true v >>= fun v => awaitEdge >>= fun _ =>
        write (fun o => { o with valid := .zero }) >>= fun _ => pure v) s)
      (fun _ s' => s'.out.valid = .zero) := by
  induction words with
  | nil =>
    intro w hw v s hs hp
    have := Runs.bind (pkStream c) (l' := []) (ns' := []) rfl (Offers.runs _ (pkWord_offers c w (hw w (by simp)) p v s hs hp))
      (f := fun v => write (fun o : PkOut => { o with valid := .zero }) >>= fun _ => pure v)
      (post' := fun _ s' => s'.out.valid = .zero) (by
        rintro x s' ⟨h1, -, -⟩
        rw [bind_write _ _ _ (by rw [h1]; decide), pure_run]
        exact Runs.nil _ _ _ _ rfl)
    simp only [bind_assoc, pure_bind] at this
    simp only [pkWords, pure_bind]
    exact this
  | cons w' words ih =>
    intro w hw v s hs hp
    have := Runs.bind (pkStream c) (l' := List.replicate (words.length + 1) p) (ns' := gaps (words.length + 1) (gapStep v).2) rfl
      (Offers.runs _ (pkWord_offers c w (hw w (by simp)) p v s hs hp))
      (f := fun v => pkWord c w' v >>= fun v => pkWords c words true v >>= fun v => awaitEdge >>= fun _ =>
        write (fun o : PkOut => { o with valid := .zero }) >>= fun _ => pure v)
      (post' := fun _ s' => s'.out.valid = .zero) (by
        rintro x s' ⟨h1, rfl, h2⟩
        exact ih w' (fun x hx => hw x (by simp at hx ⊢; tauto)) _ s' (by rw [h1]; decide) h2)
    simp only [bind_assoc, pure_bind] at this
    simp only [pkWords, when, if_true, bind_assoc]
    exact this

/-- all words of an iterable -/
theorem pkSendWords_runs (c : PkCfg) (words : List PkWord) (hne : words ≠ []) (hw : ∀ w ∈ words, w.valid = none) (sync : Bool)
    (v : Valids) (s : Sim PkIn PkOut) (hs : s.phase ≠ .ro) (h0 : s.out.valid = .zero) :
    Runs (pkStream c) (List.replicate words.length ((pkStream c).payload s.out)) (addFirst (syncEdges sync) (gaps words.length v))
      (pkSendWords c words sync v s) (fun _ s' => s'.out.valid = .zero) := by
  cases words with
  | nil => exact absurd rfl hne
  | cons w words =>
    unfold pkSendWords
    simp only [pkWords, bind_assoc]
    cases sync with
    | false =>
      have e : addFirst (syncEdges false) (gaps (w :: words).length v) = gaps (words.length + 1) v := by
        simp [addFirst, gaps, syncEdges]
      rw [e]
      exact pkWords_runs c _ words w hw v s hs rfl
    | true =>
      refine Runs.edge (pkStream c) (by simp [pkStream, h0]) (fun i r hr => ?_)
      exact pkWords_runs c _ words w hw v _ (by simp) rfl

/-- C42, proved part: the timing. For words without `valid` attribute, one beat is offered per word, with the generator's gaps, and held until
accepted; what the beats carry is whatever was on the other signals before. Missing: the payload (`C42_no_signal_driven`), and words with a `valid`
attribute (`C42_violated`). -/
theorem C42_timing_partial (c : PkCfg) (words : List PkWord) (hne : words ≠ []) (hw : ∀ w ∈ words, w.valid = none) (sync : Bool) (ch : Option Int)
    (v : Valids) (s : Sim PkIn PkOut) (hs : s.phase ≠ .ro) (h0 : s.out.valid = .zero) :
    let r := pkDriverSend c (.words words) sync ch v s
    (pkStream c).taken r.1 <+: List.replicate words.length ((pkStream c).payload s.out) ∧
    (∀ v' s', r.2 = .ok v' s' → ((pkStream c).taken r.1).length = words.length ∧ s'.out.valid = .zero) ∧
    (pkStream c).Holds (pending r) ∧
    (∀ e s', r.2 ≠ .err e s') := by
  intro r
  rw [show r = pkSendWords c words sync v s from rfl]
  obtain ⟨k, hk, h1, h2, h3, -, h4⟩ := pkSendWords_runs c words hne hw sync v s hs h0
  refine ⟨by rw [h1]; exact List.take_prefix _ _, ?_, h3, ?_⟩
  · intro v' s' h
    rcases h4 with ⟨h4, -, -, v2, s2, h5, h6⟩ | ⟨h4, s2, h5, -⟩
    · rw [h] at h5; cases h5
      refine ⟨?_, h6⟩
      rw [h1, h4]; simp
    · rw [h] at h5; cases h5
  · intro e s' h
    rcases h4 with ⟨h4, -, -, v2, s2, h5, -⟩ | ⟨h4, s2, h5, -⟩ <;> (rw [h] at h5; cases h5)

/-- C17 for packets given as words without `valid` attribute: the idle edges before each word taken are the programmed gap, plus the synchronisation edge
before the first. -/
theorem C17_words (c : PkCfg) (words : List PkWord) (hne : words ≠ []) (hw : ∀ w ∈ words, w.valid = none) (sync : Bool) (ch : Option Int) (g : List (Nat × Nat))
    (s : Sim PkIn PkOut) (hs : s.phase ≠ .ro) (h0 : s.out.valid = .zero) :
    let t := (pkDriverSend c (.words words) sync ch (setValidGenerator (some g)) s).1
    (pkStream c).idleBefore 0 t =
      ((List.range words.length).map (fun j => gapAt (usable g) j + if j = 0 then syncEdges sync else 0)).take ((pkStream c).taken t).length := by
  intro t
  obtain ⟨k, hk, h1, h2, -⟩ := pkSendWords_runs c words hne hw sync (setValidGenerator (some g)) s hs h0
  have h3 : (pkStream c).idleBefore 0 t = _ := h2
  have h4 : (pkStream c).taken t = _ := h1
  rw [h3, h4, gaps_setValid, List.length_take, Nat.min_eq_left hk]
  congr 1
  cases words with
  | nil => exact absurd rfl hne
  | cons w words =>
    simp only [List.length_cons, List.range_succ_eq_map, List.map_cons, List.map_map, addFirst]
    simp [Nat.add_comm]

-- three words, with a gap of two edges before the second and of one before the third
example : let c : PkCfg := { width := 8, hasReady := false, emptyW := none, channelW := none }
    let t := (pkDriverSend c (.words [{}, {}, {}]) true none (setValidGenerator (some [(1, 2), (1, 1)]))
      ⟨.mid, ⟨.zero, .zero, .zero, natToBits 8 0, [], []⟩, rdy .one, rdy .one, List.replicate 9 (rdy .one)⟩).1
    (pkStream c).idleBefore 0 t = [1, 2, 1] ∧ ((pkStream c).taken t).length = 3 := by decide +kernel

/-- C42: what is taken for what. A bytestring is sent as one packet, the packet of C34, C35 and C41; a unicode string raises TypeError before any
signal is driven or any edge awaited; with an iterable the channel changes nothing. -/
theorem C42_kinds (c : PkCfg) (sync : Bool) (ch : Option Int) (v : Valids) (s : Sim PkIn PkOut) :
    (∀ b, pkDriverSend c (.bytes b) sync ch v s = pkSend c b sync ch v s) ∧
    (∀ str, pkDriverSend c (.str str) sync ch v s = ([], .err .typeError s)) ∧
    (∀ words, pkDriverSend c (.words words) sync ch v s = pkDriverSend c (.words words) sync none v s) :=
  ⟨fun _ => rfl, fun _ => rfl, fun _ => rfl⟩

/-! ### C43 -/

/-- C43 is false of the code: with 16-bit symbols on a 32-bit bus a 2-byte packet comes back empty. -/
theorem C43_violated : ∃ (c : PkCfg) (s : Sim PkIn PkOut) (pkt : Bytes), ByteBus c 4 ∧ c.bitsPerSymbol = 16 ∧ 
    (∃ v s', (pkSend c pkt true none (setValidGenerator none) s).2 = .ok v s') ∧
    (pkMonitor c (pkSend c pkt true none (setValidGenerator none) s).1 {}).1 ≠ [⟨pkt, none⟩] := by
  refine ⟨{ width := 32, hasReady := false, emptyW := some 2, channelW := none, bitsPerSymbol := 16 },
    ⟨.mid, ⟨.zero, .zero, .zero, natToBits 32 0, [.zero, .zero], []⟩, rdy .one, rdy .one, [rdy .one, rdy .one, rdy .one]⟩, [1, 2],
    ⟨by decide, rfl, fun _ => ⟨2, rfl, by decide⟩, fun w h => by cases h⟩, rfl, ⟨_, _, rfl⟩, by decide +kernel⟩

/-- C43, proved part: with any `dataBitsPerSymbol` packets that fill their beats come back unchanged. Missing: packets with a
partly filled last beat (`C43_violated`). -/
theorem C43_full_beats_partial (c : PkCfg) (n : Nat) (hb : ByteBus c n) (items : List PkItem)
    (hi : ∀ p ∈ items, p.pkt ≠ [] ∧ ChannelOk c p.channel ∧ n ∣ p.pkt.length) (v : Valids) (s : Sim PkIn PkOut) (hs : s.phase ≠ .ro)
    (hreset : ∀ i ∈ s.cur :: s.rest, inReset i.resetN i.reset = .ok false) (hnt : NoTimeout c (pkSendAll c items v s).1) :
    let r := pkSendAll c items v s
    let reports := items.map (fun p => reportOf c p.pkt (c.channelW.map (fun _ => (p.channel.getD 0).toNat)))
    ∃ st, pkMonitor c r.1 {} = (reports.take (ended (beatsIn c r.1)), .ok st) ∧
      (∀ v' s', r.2 = .ok v' s' → pkMonitor c r.1 {} = (reports, .ok st)) := by
  obtain ⟨k, hk, h1, -, -, -, h4⟩ := pkSendAll_runs c n hb items (fun p hp => ⟨(hi p hp).1, (hi p hp).2.1⟩) v s hs
  obtain ⟨⟨st, h5⟩, h6⟩ := pkMonitor_driver c n hb items (fun p hp => ⟨(hi p hp).1, (hi p hp).2.1, .inr (hi p hp).2.2⟩) _
    (sent_inputs (Good.pkSendAll c items v) s hreset) hnt k h1
  refine ⟨st, h5, fun v' s' h => ?_⟩
  rcases h4 with ⟨h4, -⟩ | ⟨-, s2, h4, -⟩
  · refine h5.trans ?_
    rw [h6 (by omega), List.take_of_length_le (by simp)]
    rfl
  · rw [h] at h4; cases h4

/-- C43, exactly what comes back, for symbols of `k` bytes: the driver counts the unused bytes of the last beat and the monitor takes the number
for a number of symbols, so the packet loses its last bytes; where the bus is no wider than a symbol, so that there is no empty signal, it gets
zeros at its end. For every packet, valid generator and schedule. -/
theorem C43_exact (c : PkCfg) (n : Nat) (hb : ByteBus c n) (k : Nat) (hk : 0 < k) (hsym : c.bitsPerSymbol = 8 * k) (items : List PkItem)
    (hi : ∀ p ∈ items, p.pkt ≠ [] ∧ ChannelOk c p.channel) (v : Valids) (s : Sim PkIn PkOut) (hs : s.phase ≠ .ro)
    (hreset : ∀ i ∈ s.cur :: s.rest, inReset i.resetN i.reset = .ok false) (hnt : NoTimeout c (pkSendAll c items v s).1) :
    let r := pkSendAll c items v s
    let reports := items.map (fun p => reportOf c (comesBack c.useEmpty n k p.pkt) (c.channelW.map (fun _ => (p.channel.getD 0).toNat)))
    ∃ st, pkMonitor c r.1 {} = (reports.take (ended (beatsIn c r.1)), .ok st) ∧
      (∀ v' s', r.2 = .ok v' s' → pkMonitor c r.1 {} = (reports, .ok st)) := by
  obtain ⟨j, hj, h1, -, -, -, h4⟩ := pkSendAll_runs c n hb items hi v s hs
  obtain ⟨⟨st, h5⟩, h6⟩ := pkMonitor_driver_back c n hb items (comesBack c.useEmpty n k)
    (fun p hp L hL => packetOn_of_beats c n hb p.channel (hi p hp).2 p.pkt _ L hL
      (packet_shape_sym c n hb p.channel (hi p hp).2 k hsym _ hk true p.pkt L (hi p hp).1 (Nat.le_refl _) (by rw [hL, beatsOf_eq]))) _
    (sent_inputs (Good.pkSendAll c items v) s hreset) hnt j h1
  refine ⟨st, h5, fun v' s' h => ?_⟩
  rcases h4 with ⟨h4, -⟩ | ⟨-, s2, h4, -⟩
  · refine h5.trans ?_
    rw [h6 (by omega), List.take_of_length_le (by simp)]
    rfl
  · rw [h] at h4; cases h4

/-- C43, exactly when a packet comes back unchanged: the symbols are bytes, or it fills its beats. -/
theorem C43_unchanged_iff (c : PkCfg) (n : Nat) (hb : ByteBus c n) (k : Nat) (hk : 0 < k) (hsym : c.bitsPerSymbol = 8 * k) (pkt : Bytes) (hne : pkt ≠ []) :
    comesBack c.useEmpty n k pkt = pkt ↔ k = 1 ∨ n ∣ pkt.length := by
  refine ⟨fun h => ?_, comesBack_same c n hb k hsym pkt hne⟩
  by_cases hk1 : k = 1
  · exact .inl hk1
  · refine .inr ?_
    have h1 : pkt.length ≤ n * beatCount n pkt.length ∧ n * beatCount n pkt.length < pkt.length + n := by
      have hn := hb.pos
      have hpos : 0 < pkt.length := List.length_pos_iff.2 hne
      unfold beatCount
      have := Nat.div_add_mod (pkt.length + n - 1) n
      have := Nat.mod_lt (pkt.length + n - 1) hn
      omega
    have h2 := congrArg List.length h
    unfold comesBack at h2
    generalize hm : beatCount n pkt.length = m at h1 h2
    refine ⟨m, ?_⟩
    generalize n * m = B at h1 h2 ⊢
    have h3 : (B - pkt.length) * 2 ≤ (B - pkt.length) * k := Nat.mul_le_mul_left _ (by omega)
    simp only at h2
    generalize (B - pkt.length) * k = D at h2 h3
    cases hu : c.useEmpty with
    | true => simp only [hu, if_true, List.length_take] at h2; have hpos : 0 < pkt.length := List.length_pos_iff.2 hne; omega
    | false => simp only [hu, Bool.false_eq_true, if_false, List.length_append, List.length_replicate] at h2; omega

/-- 16-bit symbols on a 32-bit bus: 5 bytes come back as 4, 6 as 4, 7 as 6 (and 4 as 4); without an empty signal (16-bit bus) 3 as 4. -/
example : [[1, 2, 3, 4], [1, 2, 3, 4, 5], [1, 2, 3, 4, 5, 6], [1, 2, 3, 4, 5, 6, 7]].map (comesBack true 4 2) =
    [[1, 2, 3, 4], [1, 2, 3, 4], [1, 2, 3, 4], [1, 2, 3, 4, 5, 6]] ∧ comesBack false 2 2 [1, 2, 3] = [1, 2, 3, 0] := by decide +kernel

example :
    let c : PkCfg := { width := 32, hasReady := false, emptyW := some 2, channelW := none, bitsPerSymbol := 16 }
    let r := pkSendAll c [⟨[1, 2, 3, 4, 5, 6, 7], true, none⟩, ⟨[8], true, none⟩] (setValidGenerator none)
      ⟨.mid, ⟨.zero, .zero, .zero, natToBits 32 0, [.zero, .zero], []⟩, rdy .one, rdy .one, List.replicate 9 (rdy .one)⟩
    r.2.isOk = true ∧ (pkMonitor c r.1 {}).1 = [⟨[1, 2, 3, 4, 5, 6], none⟩, ⟨[], none⟩] := by decide +kernel

/-! ### C77 -/

/-- C77 is false of the code: on a data bus narrower than a byte a send never completes, whatever the packet, the valid generator
and the schedule, and it raises no exception: valid beats without packet bytes go on for ever. -/
theorem C77_never_completes (c : PkCfg) (hw : c.width < 8) (h2 : 2 ≤ c.width) (pkt : Bytes) (hne : pkt ≠ []) (sync : Bool) (ch : Option Int)
    (hc : ChannelOk c ch) (v : Valids) (s : Sim PkIn PkOut) (hs : s.phase ≠ .ro) :
    ∃ s', (pkSend c pkt sync ch v s).2 = .blocked s' := by
  have hdiv : c.width / 8 = 0 := by omega
  have any : ∀ {α β : Type} (x : β → M PkIn PkOut α) (Q E B), ∀ b, Triple (fun _ => False) (fun _ => True) (x b) Q E B :=
    fun x Q E B b => ⟨fun s hs => hs.elim, fun s hs => hs.elim, fun s hs => hs.elim, fun s hs => hs.elim⟩
  have hgap : ∀ v, Triple (fun s : Sim PkIn PkOut => s.phase ≠ .ro) (fun _ => True) (gapM pkLower v) (fun _ s => s.phase ≠ .ro) (fun _ _ => False) (fun _ => True) := by
    intro v
    refine Triple.ite (fun _ => ?_) (fun _ => Triple.pure _ (fun s hs => hs))
    refine Triple.bind (S := fun _ s => s.phase ≠ .ro) (Triple.write _ (fun s hs => hs) (fun s hs => hs)) fun _ => ?_
    exact Triple.bind (Triple.edges (Inv := fun s => s.phase ≠ .ro) (fun s _ => trivial) (fun s _ => trivial) (fun s i r hs _ => by simp) _)
      fun _ => Triple.pure _ (fun s hs => hs)
  have hbeat : ∀ first (string : Bytes) v, string ≠ [] → Triple (fun s : Sim PkIn PkOut => s.phase ≠ .ro) (fun _ => True) (pkBeat c ch first string v)
      (fun x _ => x.1 ≠ []) (fun _ _ => False) (fun _ => True) := by
    intro first string v hstr
    have hpos : 0 < string.length := List.length_pos_iff.2 hstr
    unfold pkBeat
    simp only [hdiv]
    refine Triple.bind (hgap v) fun v' => ?_
    refine Triple.bind (S := fun _ s => s.phase ≠ .ro) (Triple.write _ (fun s hs => hs) (fun s hs => hs)) fun _ => ?_
    refine Triple.bind (S := fun _ s => s.phase ≠ .ro) ?_ fun _ => ?_
    · unfold pkChannel
      unfold ChannelOk at hc
      cases hcw : c.channelW with
      | none => exact Triple.pure _ (fun s hs => hs)
      | some w =>
        cases ch with
        | none => exact Triple.write _ (fun s hs => hs) (fun s hs => hs)
        | some x =>
          rw [hcw] at hc
          simp only at hc ⊢
          exact Triple.ite (fun h => by omega) (fun _ => Triple.write _ (fun s hs => hs) (fun s hs => hs))
    refine Triple.bind (S := fun _ s => s.phase ≠ .ro) (Triple.write _ (fun s hs => hs) (fun s hs => hs)) fun _ => ?_
    rw [if_neg (by omega)]
    refine Triple.bind (S := fun x s => s.phase ≠ .ro ∧ x ≠ []) (Triple.pure _ (fun s hs => ⟨hs, by simpa using hstr⟩)) fun x => ?_
    refine Triple.bind (S := fun _ s => s.phase ≠ .ro ∧ x ≠ []) (Triple.ofExcept _ (fun a s _ hs => hs) (fun e s he hs => ?_)) fun _ => ?_
    · have : createBinaryBytes (string.take (min string.length 0)) c.width c.highFirst = .ok (.array (List.replicate c.width .zero)) := by
        unfold createBinaryBytes
        rw [if_neg (by omega)]
        cases c.highFirst <;> simp [joinBytes]
      rw [this] at he; cases he
    refine Triple.bind (S := fun _ s => s.phase ≠ .ro ∧ x ≠ []) (Triple.write _ (fun s hs => hs.1) (fun s hs => hs)) fun _ => ?_
    refine Triple.bind (S := fun _ _ => x ≠ []) (Triple.when _ (fun _ => ?_) (fun _ s hs => hs.2)) fun _ => Triple.pure _ (fun s hs => hs)
    exact Triple.waitRO (Inv := fun s => s.phase = .ro ∧ x ≠ []) _ (fun s hs => ⟨hs.1, rfl, hs.2⟩) (fun s i r hs _ => ⟨rfl, hs.2⟩) (fun s hs => hs.1)
      (fun _ _ _ => trivial) (fun _ _ => trivial) (fun s hs _ => hs.2) (fun s e _ he => by cases he)
  have key : Triple (fun s : Sim PkIn PkOut => s.phase ≠ .ro) (fun _ => True) (pkSend c pkt sync ch v) (fun _ _ => False)
      (fun _ _ => False) (fun _ => True) := by
    unfold pkSend
    refine Triple.bind (S := fun _ s => s.phase ≠ .ro) (Triple.write _ (fun s hs => hs) (fun s hs => hs)) fun _ => ?_
    refine Triple.bind (S := fun _ s => s.phase ≠ .ro) (Triple.when _ (fun h => ?_) (fun _ s hs => hs)) fun _ => ?_
    · exfalso
      unfold ChannelOk at hc
      cases hcw : c.channelW with
      | none => rw [hcw] at hc; simp only at hc; subst hc; simp at h
      | some w => rw [hcw] at h; simp at h
    cases pkt with
    | nil => exact absurd rfl hne
    | cons a r =>
      refine Triple.bind (S := fun _ _ => False) ?_ (any _ _ _ _)
      refine Triple.bind (S := fun _ s => s.phase ≠ .ro) (Triple.when _ (fun _ => Triple.awaitEdge (fun _ _ => trivial)
        (fun _ _ _ => trivial) (fun s i r hs _ => by simp)) (fun _ s hs => hs)) fun _ => ?_
      refine Triple.bind (hbeat true (a :: r) v (by simp)) fun x => ?_
      refine Triple.loop (Inv := fun x _ => x.1 ≠ []) _ (fun y => ?_) (fun _ _ _ => trivial) x
      obtain ⟨y, v'⟩ := y
      cases y with
      | nil => exact ⟨fun s hs => absurd rfl hs, fun s hs => absurd rfl hs, fun s hs => absurd rfl hs, fun s hs => absurd rfl hs⟩
      | cons a' r' =>
        refine Triple.bind (S := fun _ s => s.phase ≠ .ro) (Triple.awaitEdge (fun _ _ => trivial) (fun _ _ _ => trivial) (fun s i r hs _ => by simp)) fun _ => ?_
        exact Triple.bind (hbeat false (a' :: r') v' (by simp)) fun z => Triple.pure _ (fun s hs => hs)
  cases h : (pkSend c pkt sync ch v s).2 with
  | ok a s' => exact (key.ok s hs a s' h).elim
  | err e s' => exact (key.err s hs e s' h).elim
  | blocked s' => exact ⟨s', rfl⟩

/-- C77 is false of the code: a 12-bit bus passes the constructors' checks, and a one-byte packet comes back as two bytes. -/
theorem C77_violated : ∃ (c : PkCfg) (s : Sim PkIn PkOut), c.width = 12 ∧ pkInit c false = .ok () ∧ pkInit c true = .ok () ∧
    (pkMonitor c (pkSend c [7] true none (setValidGenerator none) s).1 {}).1 = [⟨[0, 0x70], none⟩] := by
  refine ⟨{ width := 12, hasReady := false, emptyW := some 1, channelW := none },
    ⟨.mid, ⟨.zero, .zero, .zero, natToBits 12 0, [.zero], []⟩, rdy .one, rdy .one, [rdy .one, rdy .one, rdy .one]⟩, rfl, by decide, by decide, by decide +kernel⟩

/-- the hypotheses of `C77_never_completes` are met by a 4-bit bus the constructor accepts -/
example : pkInit { width := 4, hasReady := true, emptyW := none, channelW := none } false = .ok () ∧
    ChannelOk { width := 4, hasReady := true, emptyW := none, channelW := none } none := ⟨by decide, rfl⟩

/-- C77, proved part: on a bus of whole bytes every send of a non-empty packet completes if the sink can take beats often enough. Missing: the other
widths (`C77_never_completes`, `C77_violated`). -/
theorem C77_whole_bytes_partial (c : PkCfg) (n : Nat) (hb : ByteBus c n) (p : PkItem) (hp : p.pkt ≠ [] ∧ ChannelOk c p.channel) (s : Sim PkIn PkOut)
    (hs : s.phase ≠ .ro)
    (hready : beatCount n p.pkt.length + syncEdges p.sync ≤ ((s.cur :: s.rest).dropLast.filter (fun i => (pkStream c).ready i)).length) :
    ∃ v' s', (pkSend c p.pkt p.sync p.channel (setValidGenerator none) s).2 = .ok v' s' := by
  have h := pkSend_runs c n hb p.pkt hp.1 p.sync p.channel hp.2 (setValidGenerator none) s hs
  have hpos := beatCount_pos n p.pkt.length hb.pos (List.length_pos_iff.2 hp.1)
  have hg : ∀ k, gaps k (setValidGenerator none) = List.replicate k 0 := by
    intro k
    rw [gaps_setValid_none]
  have hsum : (addFirst (syncEdges p.sync) (gaps (beatCount n p.pkt.length) (setValidGenerator none))).sum = syncEdges p.sync := by
    rw [hg]
    obtain ⟨m, hm⟩ : ∃ m, beatCount n p.pkt.length = m + 1 := ⟨_, (Nat.succ_pred_eq_of_pos hpos).symm⟩
    rw [hm]
    simp [List.replicate_succ, addFirst]
  obtain ⟨a, s', h1, -⟩ := Runs.progress (pkStream c) (Good.pkSend c p.pkt p.sync p.channel _) h (by
    rw [hsum, beatsOf_eq, beatsFrom_length]; exact hready)
  exact ⟨a, s', h1⟩

/-! ### C78 -/

/-- C78: the configurations the constructors accept: exactly those that satisfy the interface's rules. -/
theorem C78_accepts (c : PkCfg) (monitor : Bool) : pkInit c monitor = .ok () ↔
    (monitor = true → c.reportChannel = true → c.channelW ≠ none) ∧ (c.useEmpty = true → c.emptyW ≠ none) ∧
    (∀ w, c.channelW = some w → w ≤ 128 ∧ c.maxChannel < 2 ^ w) := by
  unfold pkInit
  by_cases h1 : monitor = true ∧ c.reportChannel = true ∧ c.channelW = none
  · rw [if_pos h1]; simp; intro h; exact absurd h1.2.2 (h h1.1 h1.2.1)
  · rw [if_neg h1]
    by_cases h2 : c.useEmpty = true ∧ c.emptyW = none
    · rw [if_pos h2]; simp [h2]
    · rw [if_neg h2]
      have a : (monitor = true → c.reportChannel = true → c.channelW ≠ none) := fun x y z => h1 ⟨x, y, z⟩
      have b : (c.useEmpty = true → c.emptyW ≠ none) := fun x y => h2 ⟨x, y⟩
      rw [and_iff_right a, and_iff_right b]
      cases hw : c.channelW with
      | none => simp
      | some w =>
        have hp : 0 < 2 ^ w := Nat.two_pow_pos w
        simp only [Option.some.injEq, forall_eq']
        by_cases h3 : w > 128
        · rw [if_pos h3]; simp; omega
        · rw [if_neg h3]
          by_cases h4 : c.maxChannel > 2 ^ w - 1
          · rw [if_pos h4]; simp; omega
          · rw [if_neg h4]; simp; omega

/-- C78: a missing empty signal, and a maxChannel the channel signal cannot express, are rejected with AttributeError; so a bus with
more than one symbol always has an empty signal. -/
theorem C78_attribute_error (c : PkCfg) (h : (c.useEmpty = true ∧ c.emptyW = none) ∨
    (∃ w, c.channelW = some w ∧ w ≤ 128 ∧ 2 ^ w ≤ c.maxChannel)) : pkInit c false = .error .attributeError := by
  unfold pkInit
  rw [if_neg (by simp)]
  by_cases h2 : c.useEmpty = true ∧ c.emptyW = none
  · rw [if_pos h2]
  · rw [if_neg h2]
    rcases h with h | ⟨w, hw, h3, h4⟩
    · exact absurd h h2
    · have hp : 0 < 2 ^ w := Nat.two_pow_pos w
      rw [hw]; simp only
      rw [if_neg (by omega), if_pos (by omega)]

/-- C78 is false of the code in one respect: a channel signal wider than the 128 bits the specification allows makes the
constructor raise TypeError, not the AttributeError it is about to raise (the message formats the name with `%d`). -/
theorem C78_violated (c : PkCfg) (w : Nat) (hw : c.channelW = some w) (h : 128 < w) (he : c.useEmpty = true → c.emptyW ≠ none) (m : Bool) :
    pkInit c m = .error .typeError := by
  unfold pkInit
  rw [if_neg (by simp [hw]), if_neg (fun hh => he hh.1 hh.2), hw]
  simp only
  rw [if_pos h]

example : pkInit (exCfg 4 true) true = .ok () ∧ pkInit { exCfg 4 true with channelW := some 129 } true = .error .typeError ∧
    pkInit { exCfg 4 true with emptyW := none } true = .error .attributeError := by decide

/-- the channels allowed by the constructors' default maxChannel are exactly those the channel signal can carry; so it is always
accepted -/
theorem C78_default (w x : Nat) : x ≤ defaultMaxChannel (some w) ↔ x < 2 ^ w := by
  have : 0 < 2 ^ w := Nat.two_pow_pos w
  simp only [defaultMaxChannel]
  omega

/-- C78: with the default maxChannel a packet interface with a channel signal of 1 to 128 bits is always accepted. -/
theorem C78_default_accepted (c : PkCfg) (monitor : Bool) (w : Nat) (hw : c.channelW = some w) (h : w ≤ 128) (he : c.useEmpty = true → c.emptyW ≠ none)
    (hm : c.maxChannel = defaultMaxChannel c.channelW) : pkInit c monitor = .ok () := by
  refine (C78_accepts c monitor).2 ⟨fun _ _ => by rw [hw]; simp, he, ?_⟩
  intro w' hw'
  rw [hw] at hw' hm
  injection hw' with hw'
  subst hw'
  exact ⟨h, (C78_default w c.maxChannel).1 (Nat.le_of_eq hm)⟩

example : defaultMaxChannel (some 4) = 15 ∧ defaultMaxChannel none = 0 ∧
    pkInit { exCfg 4 true with channelW := some 4, maxChannel := defaultMaxChannel (some 4) } true = .ok () := by decide

end CocotbBus
