import Verif.Spec.ReadyLatency
import Verif.Props.AvalonPkts

/-! # Property C115: the configured ready latency of packetized Avalon-ST -/

namespace CocotbBus
open Spec Coro

section
variable {I O P : Type} (V : Stream I O P)

theorem readyAgo_length (past : List Bool) (t : List (O × I)) : (V.readyAgo past t).length = t.length := by
  simp [Stream.readyAgo]

/-- a list zipped with as long a list, then filtered by the first component -/
theorem zip_filterMap_fst {α β γ : Type} (f : α → Option γ) : ∀ (l : List α) (m : List β), m.length = l.length →
    (l.zip m).filterMap (fun x => f x.1) = l.filterMap f
  | [], _, _ => by simp
  | a :: l, [], h => by simp at h
  | a :: l, b :: m, h => by
    have ih := zip_filterMap_fst f l m (by simpa using h)
    simp only [List.zip_cons_cons, List.filterMap_cons, ih]

theorem filterMap_eq_on {α β : Type} (f g : α → Option β) : ∀ (l : List α), (∀ x ∈ l, f x = g x) → l.filterMap f = l.filterMap g
  | [], _ => rfl
  | a :: l, h => by
    rw [List.filterMap_cons, List.filterMap_cons, h a (by simp), filterMap_eq_on f g l (fun x hx => h x (by simp [hx]))]

theorem xfer_steady (past : List Bool) (t : List (O × I)) (h : V.SteadyReady past t) (x : (O × I) × Bool)
    (hx : x ∈ t.zip (V.readyAgo past t)) : (V.valid x.1.1 && x.2) = V.xfer x.1 := by
  rw [Stream.xfer]
  cases hv : V.valid x.1.1 with
  | false => rfl
  | true => rw [h x hx hv]

theorem takenLate_steady (past : List Bool) (t : List (O × I)) (h : V.SteadyReady past t) :
    V.takenLate past t = V.taken t := by
  rw [Stream.takenLate, Stream.taken, ← List.filterMap_eq_map, ← List.filterMap_eq_map, List.filterMap_filter, List.filterMap_filter,
    ← zip_filterMap_fst _ t _ (readyAgo_length V past t)]
  apply filterMap_eq_on
  intro x hx
  simp only [xfer_steady V past t h x hx, Function.comp]
end

theorem beatsLate_steady (c : PkCfg) (past : List Bool) (t : List (PkOut × PkIn)) (h : (pkStream c).SteadyReady past t) :
    beatsLate c past t = beatsIn c t := by
  rw [beatsLate, beatsIn, ← zip_filterMap_fst _ t _ (readyAgo_length (pkStream c) past t)]
  apply filterMap_eq_on
  intro x hx
  simp only [eventAt, xfer_steady (pkStream c) past t h x hx]
  split
  · rfl
  · split <;> rfl

/-! ### C115 -/

/-- C115, what holds: whatever latency is configured, for every list of packets and every schedule in which ready, at the edges with a beat on
offer, is what it was that many edges before, a sink with that latency takes the beats of the packets, in order, and all of them if the sends
complete. What is missing: the schedules in which ready has changed in between (`C115_violated_driver`). -/
theorem C115_driver_partial (c : PkCfg) (n : Nat) (hb : ByteBus c n) (items : List PkItem)
    (hi : ∀ p ∈ items, p.pkt ≠ [] ∧ ChannelOk c p.channel) (v : Valids) (s : Sim PkIn PkOut) (hs : s.phase ≠ .ro)
    (past : List Bool) (_hp : past.length = c.readyLatency)
    (hr : (pkStream c).SteadyReady past (pkSendAll c items v s).1) :
    let r := pkSendAll c items v s
    let beats := items.flatMap (fun p => beatsOf c n p.pkt (p.channel.getD 0).toNat)
    (pkStream c).takenLate past r.1 <+: beats ∧
    (∀ v' s', r.2 = .ok v' s' → (pkStream c).takenLate past r.1 = beats) := by
  obtain ⟨h1, h2, -⟩ := C35_framing c n hb items hi v s hs
  exact ⟨by rw [takenLate_steady _ _ _ hr]; exact h1, fun v' s' h => by rw [takenLate_steady _ _ _ hr]; exact (h2 v' s' h).1⟩

/-- C115, what holds for the monitor: on every trace with such a ready whose beats, as a sink with the configured latency takes them, are those
of a sequence of well-formed packets, exactly those packets are reported. What is missing: `C115_violated_monitor`. -/
theorem C115_monitor_partial (c : PkCfg) (n : Nat) (hn : 0 < n) (ps : List (Bytes × Option Nat × List PkOut))
    (h : ∀ p ∈ ps, PacketOn c n p.1 p.2.1 p.2.2) (t : List (PkOut × PkIn)) (hr : ∀ r ∈ t, ResetReadable r.2)
    (hnt : NoTimeout c t) (past : List Bool) (_hp : past.length = c.readyLatency) (hs : (pkStream c).SteadyReady past t)
    (hb : beatsLate c past t = ps.flatMap (fun p => p.2.2)) :
    ∃ st, pkMonitor c t {} = (ps.map (fun p => reportOf c p.1 p.2.1), .ok st) :=
  C36_decode c n hn ps h t hr hnt (by rw [← beatsLate_steady c past t hs]; exact hb)

/-- C115: the option has no effect at all: two configurations that differ in it only give the same pins and the same reports. -/
theorem C115_ignored (c : PkCfg) (k : Nat) (items : List PkItem) (v : Valids) (s : Sim PkIn PkOut) (t : List (PkOut × PkIn)) (st : PkState) :
    pkSendAll { c with readyLatency := k } items v s = pkSendAll c items v s ∧
    pkMonitor { c with readyLatency := k } t st = pkMonitor c t st := by
  refine ⟨congrFun ?_ s, ?_⟩
  · induction items generalizing v with
    | nil => rfl
    | cons p r ih =>
      rw [pkSendAll, pkSendAll]
      simp only [ih]
      rfl
  · induction t generalizing st with
    | nil => rfl
    | cons x r ih =>
      obtain ⟨o, i⟩ := x
      have h : pkStep { c with readyLatency := k } st o i = pkStep c st o i := rfl
      rw [pkMonitor, pkMonitor, h]
      simp only [ih]

/-- a two-byte bus with the given ready latency -/
def exLate (k : Nat) : PkCfg := { width := 16, hasReady := true, emptyW := some 1, channelW := none, readyLatency := k }

theorem exLate_bus (k : Nat) : ByteBus (exLate k) 2 :=
  ⟨by decide, rfl, fun _ => ⟨1, rfl, by decide⟩, fun w h => by cases h⟩

/-- one packet of three beats against the given values of ready -/
def exLateRun (k : Nat) (l : List Logic) : Res PkIn PkOut Valids :=
  pkSendAll (exLate k) [⟨[1, 2, 3, 4, 5, 6], false, none⟩] (setValidGenerator none)
    ⟨.edge, ⟨.zero, .x, .x, List.replicate 16 .x, [.x], []⟩, rdy .one, rdy (l.headD .zero), l.tail.map rdy⟩

/-- the data a sink with the configured latency takes in that run -/
def exLateData (k : Nat) (past : List Bool) (l : List Logic) : List Nat :=
  ((pkStream (exLate k)).takenLate past (exLateRun k l).1).map (fun b => bitsToNat b.data)

/-- a sink that is ready throughout, latency 2: the three beats of the packet -/
example : (pkStream (exLate 2)).SteadyReady [true, true] (exLateRun 2 [.one, .one, .one, .one]).1 ∧
    (exLateRun 2 [.one, .one, .one, .one]).2.isOk = true ∧
    exLateData 2 [true, true] [.one, .one, .one, .one] = [0x0102, 0x0304, 0x0506] := by
  refine ⟨?_, by decide +kernel, by decide +kernel⟩
  unfold Stream.SteadyReady
  decide +kernel

/-- C115 is violated by the driver. Configured for latency 1, it offers the first beat to a sink that was not ready an edge before, which is
not allowed, sees ready at that edge and goes on: the sink never takes the first beat, and the send completes. Configured for latency 2, a
sink that takes back ready for one edge takes the second beat twice. -/
theorem C115_violated_driver :
    (¬ (pkStream (exLate 1)).OffersWhenReady [false] (exLateRun 1 [.one, .one, .one, .one]).1 ∧
      (exLateRun 1 [.one, .one, .one, .one]).2.isOk = true ∧
      exLateData 1 [false] [.one, .one, .one, .one] = [0x0304, 0x0506]) ∧
    ((exLateRun 2 [.one, .zero, .one, .one, .one]).2.isOk = true ∧
      exLateData 2 [true, true] [.one, .zero, .one, .one, .one] = [0x0102, 0x0304, 0x0304]) := by
  refine ⟨⟨?_, by decide +kernel, by decide +kernel⟩, by decide +kernel, by decide +kernel⟩
  unfold Stream.OffersWhenReady
  decide +kernel

/-- one-beat packets `1 2` and `3 4` offered at the two edges after an edge with ready each, latency 1 -/
def exLateTrace : List (PkOut × PkIn) :=
  [(⟨.one, .one, .one, natToBits 16 0x0102, [.zero], []⟩, rdy .zero),
   (⟨.zero, .zero, .zero, natToBits 16 0, [.zero], []⟩, rdy .one),
   (⟨.one, .one, .one, natToBits 16 0x0304, [.zero], []⟩, rdy .one),
   (⟨.one, .one, .one, natToBits 16 0x0506, [.zero], []⟩, rdy .zero)]

/-- C115 is violated by the monitor: three packets, each offered one edge after ready as latency 1 demands; only the second is reported. -/
theorem C115_violated_monitor :
    (pkStream (exLate 1)).OffersWhenReady [true] exLateTrace ∧
    (beatsLate (exLate 1) [true] exLateTrace).map (fun o => bitsToNat o.data) = [0x0102, 0x0304, 0x0506] ∧
    (pkMonitor (exLate 1) exLateTrace {}).1 = [⟨[3, 4], none⟩] := by
  refine ⟨?_, by decide +kernel, by decide +kernel⟩
  unfold Stream.OffersWhenReady
  decide +kernel

/-- the same packets with ready throughout -/
example : (pkStream (exLate 1)).SteadyReady [true] (exLateTrace.map (fun r => (r.1, rdy .one))) ∧
    (beatsLate (exLate 1) [true] (exLateTrace.map (fun r => (r.1, rdy .one)))).length = 3 ∧
    (pkMonitor (exLate 1) (exLateTrace.map (fun r => (r.1, rdy .one))) {}).1 = [⟨[1, 2], none⟩, ⟨[3, 4], none⟩, ⟨[5, 6], none⟩] := by
  refine ⟨?_, by decide +kernel, by decide +kernel⟩
  unfold Stream.SteadyReady
  decide +kernel

end CocotbBus
