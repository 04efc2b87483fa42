import Verif.Proof.Session
import Verif.Props.AvalonPkts
import Verif.Proof.Verdict

/-!
# C31, C34, C35 for drivers in use over time, and C83: driver, monitor and scoreboard together

The theorems in `Props/AvalonST` and `Props/AvalonPkts` are about sends that follow each other directly. Here the driver is
constructed and then used at arbitrary times: any pauses between sends, any changes of the valid generator.
-/

namespace CocotbBus
open Spec Coro

/-- C31 for every use of the driver: whatever the pauses between the sends, the changes of the valid generator and the schedule
of `ready`, the words transferred since construction are the sent words in order, each once, up to some point; all of them
if the last send returned. -/
theorem C31_session (cfg : StCfg) (acts : List (Act (AvVal × Bool))) (word : AvVal → LogicArray)
    (hx : ∀ x ∈ sends acts, ∃ d, createBinary x.1 cfg.width false = .ok d ∧ d.bits = word x.1)
    (s : Sim StIn StOut) (hs : s.phase ≠ .ro) :
    let r := stTest cfg acts s
    transferred cfg.hasReady r.1 <+: (sends acts).map (fun x => word x.1) ∧
    (∀ v' s', r.2 = .ok v' s' → transferred cfg.hasReady r.1 = (sends acts).map (fun x => word x.1) ∧ s'.out.valid ≠ .one) ∧
    (∀ e s', r.2 ≠ .err e s') ∧
    HoldsUntilTaken cfg.hasReady (withPending r) := by
  obtain ⟨k, hk, h1, h3, h4⟩ := stTest_passes cfg acts word hx s hs
  intro r
  refine ⟨?_, ?_, ?_, holdsUntilTaken_eq cfg _ h3⟩
  · rw [transferred_taken_eq, h1]; exact List.take_prefix _ _
  · intro v' s' h
    rcases h4 with ⟨h4, -, v2, s2, h5, h6⟩ | ⟨s2, h5, -⟩
    · rw [show r.2 = _ from h5] at h
      cases h
      refine ⟨by rw [transferred_taken_eq, h1, h4, List.take_length], ?_⟩
      have := h6.2
      simpa [stStream] using this
    · rw [show r.2 = _ from h5] at h; cases h
  · intro e s' h
    rcases h4 with ⟨h4, -, v2, s2, h5, h6⟩ | ⟨s2, h5, -⟩ <;> (rw [show r.2 = _ from h5] at h; cases h)

/-- what is on the pins for an integer word -/
def exSessionWord : AvVal → LogicArray
  | .int n => natToBits 8 n
  | _ => []

/-- a use with a pause, a generator and a sink that stalls -/
def exActs : List (Act (AvVal × Bool)) :=
  [.pause 2, .send (.int 1, true), .step, .gen (some [(1, 1)]), .pause 1, .send (.int 2, false), .send (.int 3, true)]

example : (∀ x ∈ sends exActs, ∃ d, createBinary x.1 8 false = .ok d ∧ d.bits = exSessionWord x.1) ∧
    (transferred true (stTest ⟨8, true, true⟩ exActs ⟨.mid, ⟨.x, []⟩, ⟨.one⟩, ⟨.one⟩, [⟨.one⟩, ⟨.one⟩, ⟨.x⟩, ⟨.zero⟩, ⟨.one⟩,
      ⟨.one⟩, ⟨.one⟩, ⟨.one⟩, ⟨.one⟩, ⟨.one⟩, ⟨.one⟩, ⟨.one⟩]⟩).1) = [natToBits 8 1, natToBits 8 2, natToBits 8 3] := by
  refine ⟨?_, by decide +kernel⟩
  intro x hx
  simp only [exActs, sends, List.mem_cons, List.not_mem_nil, or_false] at hx
  rcases hx with rfl | rfl | rfl <;> exact ⟨_, rfl, rfl⟩

/-- C35 for every use of the packet driver. -/
theorem C35_session (c : PkCfg) (n : Nat) (hb : ByteBus c n) (acts : List (Act PkItem))
    (hi : ∀ p ∈ sends acts, p.pkt ≠ [] ∧ ChannelOk c p.channel) (s : Sim PkIn PkOut) (hs : s.phase ≠ .ro) :
    let r := pkTest c acts s
    let beats := (sends acts).flatMap (fun p => beatsOf c n p.pkt (p.channel.getD 0).toNat)
    (pkStream c).taken r.1 <+: beats ∧
    (∀ v' s', r.2 = .ok v' s' → (pkStream c).taken r.1 = beats ∧ s'.out.valid ≠ .one) ∧
    (∀ e s', r.2 ≠ .err e s') ∧
    (pkStream c).Holds (pending r) := by
  obtain ⟨k, hk, h1, h3, h4⟩ := pkTest_passes c n hb acts hi s hs
  intro r beats
  refine ⟨?_, ?_, ?_, h3⟩
  · rw [show (pkStream c).taken r.1 = _ from h1]; exact List.take_prefix _ _
  · intro v' s' h
    rcases h4 with ⟨h4, -, v2, s2, h5, h6⟩ | ⟨s2, h5, -⟩
    · rw [show r.2 = _ from h5] at h
      cases h
      refine ⟨by rw [show (pkStream c).taken r.1 = _ from h1, h4, List.take_length]; rfl, ?_⟩
      have := h6.2
      simpa [pkStream] using this
    · rw [show r.2 = _ from h5] at h; cases h
  · intro e s' h
    rcases h4 with ⟨h4, -, v2, s2, h5, h6⟩ | ⟨s2, h5, -⟩ <;> (rw [show r.2 = _ from h5] at h; cases h)

/-- C34 for every use of the packet driver: the monitor reports exactly the packets completed so far, in order. -/
theorem C34_session (c : PkCfg) (n : Nat) (hb : ByteBus c n) (h8 : c.bitsPerSymbol = 8) (acts : List (Act PkItem))
    (hi : ∀ p ∈ sends acts, p.pkt ≠ [] ∧ ChannelOk c p.channel) (s : Sim PkIn PkOut) (hs : s.phase ≠ .ro)
    (hreset : ∀ i ∈ s.cur :: s.rest, inReset i.resetN i.reset = .ok false) (hnt : NoTimeout c (pkTest c acts s).1) :
    let r := pkTest c acts s
    let reports := (sends acts).map (fun p => reportOf c p.pkt (c.channelW.map (fun _ => (p.channel.getD 0).toNat)))
    ∃ st, pkMonitor c r.1 {} = (reports.take (ended (beatsIn c r.1)), .ok st) ∧
      (∀ v' s', r.2 = .ok v' s' → pkMonitor c r.1 {} = (reports, .ok st)) := by
  obtain ⟨k, hk, h1, -, h4⟩ := pkTest_passes c n hb acts hi s hs
  obtain ⟨⟨st, h5⟩, h6⟩ := pkMonitor_driver c n hb (sends acts) (fun p hp => ⟨(hi p hp).1, (hi p hp).2, .inl h8⟩) _
    (sent_inputs (Good.pkTest c acts) s hreset) hnt k h1
  intro r reports
  refine ⟨st, h5, fun v' s' h => ?_⟩
  rcases h4 with ⟨h4, -⟩ | ⟨s2, h4, -⟩
  · refine h5.trans ?_
    rw [h6 (by omega), List.take_of_length_le (by simp)]
    rfl
  · rw [show r.2 = _ from h4] at h; cases h

/-! ### C83 -/

/-- The verdict of a loopback test: a driver sends packets, a monitor on the same bus reports to a scoreboard that expects
the list `E`. The scoreboard's state and the exception in the monitor, if any. -/
def loopback (ops : TxnOps PkReport) (strict imm : Bool) (c : PkCfg) (acts : List (Act PkItem)) (s : Sim PkIn PkOut) (E : List PkReport) :
    World PkReport × Option (Nat × PyErr) :=
  ((World.new imm (fun _ => E)).addInterface ops 0 (busMonitor none) (.list 0) .none 0 strict).1.receiveAll 0
    (pkMonitor c (pkTest c acts s).1 {}).1 0

/-- C83: whatever the packets, pauses, valid generators and schedule of `ready`: once the sends have returned, the test passes if
and only if the expected list is the list of packets sent; `fail_immediately` or not. -/
theorem C83_verdict (ops : TxnOps PkReport) (strict imm : Bool) (hops : ∀ a b, Accepts ops strict a b ↔ a = b)
    (c : PkCfg) (n : Nat) (hb : ByteBus c n) (h8 : c.bitsPerSymbol = 8) (hnt : c.invalidTimeout = 0) (acts : List (Act PkItem))
    (hi : ∀ p ∈ sends acts, p.pkt ≠ [] ∧ ChannelOk c p.channel) (s : Sim PkIn PkOut) (hs : s.phase ≠ .ro)
    (hreset : ∀ i ∈ s.cur :: s.rest, inReset i.resetN i.reset = .ok false) (E : List PkReport)
    (v' : Valids) (s' : Sim PkIn PkOut) (hdone : (pkTest c acts s).2 = .ok v' s') :
    (loopback ops strict imm c acts s E).1.sb.result = .ok () ↔
      E = (sends acts).map (fun p => reportOf c p.pkt (c.channelW.map (fun _ => (p.channel.getD 0).toNat))) := by
  obtain ⟨st, -, h1⟩ := C34_session c n hb h8 acts hi s hs hreset (.inl hnt)
  unfold loopback
  rw [h1 v' s' hdone]
  exact verdict_iff ops strict imm hops E _

/-- C83: before the sends have returned nothing is reported that was not sent: with the sent packets as expected list there is
never an exception and never an error. -/
theorem C83_no_false_alarm (ops : TxnOps PkReport) (strict imm : Bool) (hops : ∀ a b, Accepts ops strict a b ↔ a = b)
    (c : PkCfg) (n : Nat) (hb : ByteBus c n) (h8 : c.bitsPerSymbol = 8) (hnt : c.invalidTimeout = 0) (acts : List (Act PkItem))
    (hi : ∀ p ∈ sends acts, p.pkt ≠ [] ∧ ChannelOk c p.channel) (s : Sim PkIn PkOut) (hs : s.phase ≠ .ro)
    (hreset : ∀ i ∈ s.cur :: s.rest, inReset i.resetN i.reset = .ok false) :
    let r := loopback ops strict imm c acts s
      ((sends acts).map (fun p => reportOf c p.pkt (c.channelW.map (fun _ => (p.channel.getD 0).toNat))))
    r.2 = none ∧ r.1.sb.errors = 0 := by
  obtain ⟨st, h1, -⟩ := C34_session c n hb h8 acts hi s hs hreset (.inl hnt)
  unfold loopback
  rw [h1]
  exact no_alarm ops strict imm hops _ _

/-- reports as Python values: equal data and channel -/
def repOps : TxnOps PkReport where
  eq := fun a b => a == b
  ty := fun _ => 0
  str := fun a => toString (repr a)

example : ∀ a b, Accepts repOps true a b ↔ a = b := by simp [Accepts, repOps]

/-- two packets with a pause; the right list passes, the wrong order does not -/
def exPkActs : List (Act PkItem) :=
  [.pause 1, .send ⟨[1, 2, 3, 4, 5, 6], true, some 5⟩, .gen (some [(1, 2)]), .pause 2, .send ⟨[7], false, none⟩]

/-- where they are sent -/
def exPkSim : Sim PkIn PkOut :=
  ⟨.mid, ⟨.x, .x, .x, [], [], []⟩, rdy .one, rdy .one, [rdy .one, rdy .one, rdy .zero, rdy .x, rdy .one, rdy .one, rdy .one, rdy .one, rdy .one,
    rdy .one, rdy .one, rdy .one]⟩

example : (pkTest (exCfg 4 true) exPkActs exPkSim).2.isOk = true ∧
    (loopback repOps true true (exCfg 4 true) exPkActs exPkSim [⟨[1, 2, 3, 4, 5, 6], some (some 5)⟩, ⟨[7], some (some 0)⟩]).1.sb.result = .ok () ∧
    (loopback repOps true false (exCfg 4 true) exPkActs exPkSim [⟨[7], some (some 0)⟩, ⟨[1, 2, 3, 4, 5, 6], some (some 5)⟩]).1.sb.errors = 2 := by
  refine ⟨?_, ?_, ?_⟩ <;> decide +kernel

end CocotbBus
