import Verif.Proof.StreamDone

/-! # C125: the streaming test -/

namespace CocotbBus
open Spec Coro

/-- C125: the streaming test with any words that are not sent back to back, whatever the back pressure and the gaps of the driver are, and whichever of test and
monitor goes on first at an edge. No reception is ever an error; the monitor reports the words in the order in which they were sent; the verdict at
the end is success exactly if the device is empty and all reports have been made. -/
theorem C125_stream (ops : TxnOps Bytes) (name : Option String) (imm strict : Bool) (hops : ∀ t, Accepts ops strict t t) (mon ref : Nat)
    (take : Nat → Logic) (first : Nat → Bool) (queue : List LogicArray) (hq : queue.length = 10) (started : Bool) (items : List StreamItem)
    (hnb : NotBackToBack items) (v : Valids) (s : Sim StIn StOut) (hs : s.phase ≠ .ro)
    (hd : FifoDev.Drives take 0 (FifoDev.fresh queue started) (streamTest mon ref take first 0 0 (FifoDev.fresh queue started) [] items v s).trace) :
    let r := streamTest mon ref take first 0 0 (FifoDev.fresh queue started) [] items v s
    let w := addAll ops (busMonitor name) [⟨mon, ref, 0, strict⟩] (World.new imm (fun _ => []))
    (∀ p, p <+: r.events → (playSb p w).sb.errors = 0) ∧
    receivedOf mon r.events <+: items.map (fun x => [x.byte]) ∧
    (r.done = true → addedTo ref r.events = items.map (fun x => [x.byte]) ∧ ((playSb r.events w).sb.result = .ok () ↔ r.dev.size = 0 ∧ r.late = [])) := by
  intro r w
  have hfresh : (FifoDev.fresh queue started).Ok false := ⟨hq, by simp [FifoDev.fresh], by simp [FifoDev.fresh], by simp [FifoDev.fresh], by simp [FifoDev.fresh]⟩
  obtain ⟨E', t1, t2, t3⟩ := streamTest_tracks mon ref take first items 0 0 _ [] v s false hfresh (by simp [FifoDev.words, FifoDev.fresh]) hs (fun _ _ => .inl rfl) hnb hd
  have t1' : TracksTo mon ref [] r.events E' := t1
  obtain ⟨hw, hexp, herr, hheap, _⟩ := addAll_wired ops name [⟨mon, ref, 0, strict⟩] [] (World.new imm (fun _ => [])) (by simp) ⟨by simp, fun _ _ => rfl⟩ rfl
  have hcb := hw.1 ⟨mon, ref, 0, strict⟩ (by simp)
  have herr0 : w.sb.errors = 0 := herr
  have hheap0 : w.sb.heap ref = [] := by rw [hheap]; rfl
  refine ⟨?_, ?_, ?_⟩
  · rintro p ⟨q, hpq⟩
    rw [← hpq] at t1'
    obtain ⟨E1, h1⟩ := t1'.prefix
    rw [← hheap0] at h1
    exact (TracksTo.play ops strict hops (busMonitor name) (by simp [busMonitor]) p w E1 hcb herr0 h1).1
  · have hb := t1'.balance
    rw [List.nil_append] at hb
    exact (List.prefix_append _ _).trans (hb ▸ t2)
  · intro hdone
    obtain ⟨u0, L, hot', u1, u2, u3, _⟩ := t3 hdone
    refine ⟨u0, ?_⟩
    rw [← hheap0] at t1'
    obtain ⟨p1, p2⟩ := TracksTo.play ops strict hops (busMonitor name) (by simp [busMonitor]) r.events w E' hcb herr0 t1'
    have hx : (playSb r.events w).sb.expected = [((mon, .list ref) : Nat × Expected Bytes)] := by
      rw [(playSb_balance ops (busMonitor name) (by simp [busMonitor]) [⟨mon, ref, 0, strict⟩] (by simp) r.events w hw).1]
      exact hexp
    rw [result_ok_iff _ [⟨mon, ref, 0, strict⟩] hx, p1]
    have hlen := words_length u2
    constructor
    · rintro ⟨_, h⟩
      have h := h ⟨mon, ref, 0, strict⟩ (by simp)
      rw [p2, u3] at h
      obtain ⟨h1, h2⟩ := List.append_eq_nil_iff.1 h
      refine ⟨?_, u1.trans (by rw [h1]; rfl)⟩
      have := List.map_eq_nil_iff.1 h2
      rw [this] at hlen
      exact hlen.symm
    · rintro ⟨h1, h2⟩
      refine ⟨rfl, ?_⟩
      intro i hi
      obtain rfl := List.mem_singleton.1 hi
      rw [p2, u3]
      have hl : L = [] := List.map_eq_nil_iff.1 (u1.symm.trans h2)
      have hz : (streamTest mon ref take first 0 0 (FifoDev.fresh queue started) ([].map (.recv mon)) items v s).dev.size = 0 := h1
      rw [hz] at hlen
      rw [hl, List.length_eq_zero_iff.1 hlen]
      rfl

/-- C125: the verdict is success if the test waits long enough at the end: before the last edge it waits for, the sink of the words has been ready as often as there
are words, or ten times. -/
theorem C125_verdict (ops : TxnOps Bytes) (name : Option String) (imm strict : Bool) (hops : ∀ t, Accepts ops strict t t) (mon ref : Nat)
    (take : Nat → Logic) (first : Nat → Bool) (queue : List LogicArray) (hq : queue.length = 10) (started : Bool) (items : List StreamItem)
    (hnb : NotBackToBack items) (v : Valids) (s : Sim StIn StOut) (hs : s.phase ≠ .ro)
    (hd : FifoDev.Drives take 0 (FifoDev.fresh queue started) (streamTest mon ref take first 0 0 (FifoDev.fresh queue started) [] items v s).trace) :
    let r := streamTest mon ref take first 0 0 (FifoDev.fresh queue started) [] items v s
    let w := addAll ops (busMonitor name) [⟨mon, ref, 0, strict⟩] (World.new imm (fun _ => []))
    r.done = true → ∀ x ∈ items.getLast?, min 10 items.length ≤ countEdges (r.trace.length - x.pause) (x.pause - 1) (fun n => decide (take n = .one)) →
      (playSb r.events w).sb.result = .ok () ∧ receivedOf mon r.events = items.map (fun x => [x.byte]) := by
  intro r w hdone x hx hcount
  have hfresh : (FifoDev.fresh queue started).Ok false := ⟨hq, by simp [FifoDev.fresh], by simp [FifoDev.fresh], by simp [FifoDev.fresh], by simp [FifoDev.fresh]⟩
  obtain ⟨E', t1, t2, t3⟩ := streamTest_tracks mon ref take first items 0 0 _ [] v s false hfresh (by simp [FifoDev.words, FifoDev.fresh]) hs (fun _ _ => .inl rfl) hnb hd
  obtain ⟨u0, L, hot', u1, u2, u3, u4⟩ := t3 hdone
  have hz := u4 x hx (by rw [show (FifoDev.fresh queue started).size + items.length = items.length from Nat.zero_add _, Nat.zero_add]; exact hcount)
  refine ⟨((C125_stream ops name imm strict hops mon ref take first queue hq started items hnb v s hs hd).2.2 hdone).2.2 hz, ?_⟩
  have t1' : TracksTo mon ref [] r.events E' := t1
  have hb := t1'.balance
  have hE : E' = [] := by
    have hlen := words_length u2
    rw [hz.1] at hlen
    rw [u3, List.length_eq_zero_iff.1 hlen, List.map_eq_nil_iff.1 (u1.symm.trans hz.2)]
    rfl
  rw [hE, List.append_nil, List.nil_append] at hb
  exact hb.symm.trans u0

/-- C125: the test with the device: whatever the words, the gaps of the driver and the back pressure are, there is a simulation of every length in which the device drives
the signal that the driver does not drive, as `C125_stream` and `C125_verdict` ask. -/
theorem C125_exists (mon ref : Nat) (take : Nat → Logic) (first : Nat → Bool) (queue : List LogicArray) (started : Bool) (items : List StreamItem) (v : Valids) (ph : Phase)
    (o : StOut) (N : Nat) : ∃ s : Sim StIn StOut, s.phase = ph ∧ s.out = o ∧ s.rest.length = N ∧
      FifoDev.Drives take 0 (FifoDev.fresh queue started) (streamTest mon ref take first 0 0 (FifoDev.fresh queue started) [] items v s).trace :=
  streamTest_exists mon ref take first _ items v ph o N

/-- C125: the test succeeds. If the sink of the words is ready at least once in any `W` edges, and the test waits at the end for more than `W` times as many edges as there are
words (or `10 * W`), then there is a number of edges after which the test is through, with success, and all words have come. -/
theorem C125_success (W : Nat) (items : List StreamItem) (hnb : NotBackToBack items) (hp : ∀ x ∈ items.getLast?, min 10 items.length * W < x.pause) (v : Valids) :
    ∃ N, ∀ (ops : TxnOps Bytes) (name : Option String) (imm strict : Bool), (∀ t, Accepts ops strict t t) → ∀ (mon ref : Nat) (take : Nat → Logic) (first : Nat → Bool),
      (∀ n, ∃ k < W, take (n + k) = .one) → ∀ (queue : List LogicArray), queue.length = 10 → ∀ (started : Bool) (s : Sim StIn StOut), s.phase ≠ .ro → N ≤ s.rest.length →
      FifoDev.Drives take 0 (FifoDev.fresh queue started) (streamTest mon ref take first 0 0 (FifoDev.fresh queue started) [] items v s).trace →
      let r := streamTest mon ref take first 0 0 (FifoDev.fresh queue started) [] items v s
      let w := addAll ops (busMonitor name) [⟨mon, ref, 0, strict⟩] (World.new imm (fun _ => []))
      r.done = true ∧ (playSb r.events w).sb.result = .ok () ∧ receivedOf mon r.events = items.map (fun x => [x.byte]) := by
  obtain ⟨N, hN⟩ := streamTest_done W items v
  refine ⟨N, ?_⟩
  intro ops name imm strict hops mon ref take first hW queue hq started s hs hlen hd r w
  have hfresh : (FifoDev.fresh queue started).Ok false := ⟨hq, by simp [FifoDev.fresh], by simp [FifoDev.fresh], by simp [FifoDev.fresh], by simp [FifoDev.fresh]⟩
  have hdone : r.done = true := hN mon ref take first hW 0 0 _ [] s false hfresh hs (fun _ _ => .inl rfl) hnb hd hlen
  refine ⟨hdone, ?_⟩
  cases hl : items.getLast? with
  | none =>
    have hi : items = [] := List.getLast?_eq_none_iff.1 hl
    have h := C125_stream ops name imm strict hops mon ref take first queue hq started items hnb v s hs hd
    have hr : r = streamTest mon ref take first 0 0 (FifoDev.fresh queue started) [] items v s := rfl
    refine ⟨((h.2.2 hdone).2).2 ?_, ?_⟩
    · subst hi
      exact ⟨rfl, by simp [streamTest]⟩
    · subst hi
      simp [hr, streamTest, receivedOf]
  | some x =>
    have hpx := hp x (by simp [hl])
    exact C125_verdict ops name imm strict hops mon ref take first queue hq started items hnb v s hs hd hdone x (by simp [hl])
      (countEdges_windows W _ (fun n => by obtain ⟨k, hk, h⟩ := hW n; exact ⟨k, hk, by simp [h]⟩) _ _ _ (by omega))

-- three words; nobody takes any at the first six edges
def streamItems : List StreamItem := [⟨0x11, true, 1⟩, ⟨0x22, true, 0⟩, ⟨0x33, true, 5⟩]
def streamTake (n : Nat) : Logic := if n < 6 then .zero else .one
def streamSim (n : Nat) : Sim StIn StOut := ⟨.edge, ⟨.zero, []⟩, ⟨.zero⟩, ⟨.one⟩, List.replicate n ⟨.one⟩⟩
def streamQueue : List LogicArray := List.replicate 10 (List.replicate 8 .x)
def streamResult (take : Nat → Logic) : StreamRun :=
  streamTest 0 5 take (fun n => n % 2 == 1) 0 0 (FifoDev.fresh streamQueue true) [] streamItems ⟨.always, 0, none⟩ (streamSim 20)

example : NotBackToBack streamItems := ⟨.inl (by decide), .inr rfl, trivial⟩
example : FifoDev.Drives streamTake 0 (FifoDev.fresh streamQueue true) (streamResult streamTake).trace := by decide +kernel
example : (streamResult streamTake).done = true := by decide +kernel
example : min 10 streamItems.length ≤ countEdges ((streamResult streamTake).trace.length - 5) (5 - 1) (fun n => decide (streamTake n = .one)) := by decide +kernel
example : receivedOf 0 (streamResult streamTake).events = [[0x11], [0x22], [0x33]] := by decide +kernel

-- nobody takes anything at the first nine edges: the last word comes at the last edge, and is reported after the test has asked for the result
example : (streamResult (fun n => if n < 9 then .zero else .one)).done = true := by decide +kernel
example : (streamResult (fun n => if n < 9 then .zero else .one)).dev.size = 0 ∧ (streamResult (fun n => if n < 9 then .zero else .one)).late.length = 1 := by decide +kernel
-- and if nobody takes it, it stays in the device
example : (streamResult (fun n => if n < 10 then .zero else .one)).dev.size = 1 := by decide +kernel

-- the sink is ready at every third edge
example : ∀ n, ∃ k < 3, (fun n : Nat => if n % 3 = 0 then Logic.one else .zero) (n + k) = .one := by
  intro n
  refine ⟨(3 - n % 3) % 3, by omega, ?_⟩
  show (if (n + (3 - n % 3) % 3) % 3 = 0 then Logic.one else .zero) = .one
  rw [if_pos (by omega)]
example : ∀ x ∈ ([⟨0x11, true, 1⟩, ⟨0x22, true, 10⟩] : List StreamItem).getLast?, min 10 ([⟨0x11, true, 1⟩, ⟨0x22, true, 10⟩] : List StreamItem).length * 3 < x.pause := by
  intro x hx
  obtain rfl : _ = x := by simpa using hx
  decide

-- words at consecutive edges: ten words are in the device and it is ready, and the eleventh word is lost
def streamFull : FifoDev := FifoDev.run (fun _ => .zero) 0 (FifoDev.fresh streamQueue true) ((List.range 11).map (fun n => (⟨.one, natToBits 8 n⟩, ⟨.one⟩)))
example : FifoDev.Drives (fun _ => .zero) 0 (FifoDev.fresh streamQueue true) ((List.range 11).map (fun n => (⟨.one, natToBits 8 n⟩, ⟨.one⟩))) := by decide +kernel
example : streamFull.size = 11 ∧ streamFull.queue = (List.range 10).map (natToBits 8) := by decide +kernel

end CocotbBus
