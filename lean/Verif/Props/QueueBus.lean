import Verif.Proof.QueueLive
import Verif.Props.Session

/-!
# C99: everything appended is sent

The send queue thread on a bus, with `append()` called at arbitrary times.
-/

namespace CocotbBus
open Spec Coro

/-- C99, proved part, safety: whenever the words are appended (but never in the ReadOnly phase), whatever the valid generator and the
schedule of `ready`: the words transferred are those appended, in order, each once, up to some point; a word offered is held until it is
taken; and the thread never ends: it neither returns nor raises, and it is there until the last cycle. -/
theorem C99_in_order_partial (cfg : StCfg) (gen : Option (List (Nat × Nat))) (app : Sched AvVal) (hg : Grows app) (hro : NotInReadOnly app)
    (word : AvVal → LogicArray) (hx : ∀ x ∈ everything app, ∃ d, createBinary x cfg.width false = .ok d ∧ d.bits = word x)
    (s : Sim StIn StOut) (hs : s.phase ≠ .ro) :
    let r := stQueue cfg gen app s
    transferred cfg.hasReady r.1 <+: (everything app).map word ∧ HoldsUntilTaken cfg.hasReady (withPending r) ∧
    (∃ s', r.2 = .blocked s') ∧ r.1.map Prod.snd = (s.cur :: s.rest).dropLast := by
  obtain ⟨k, hk, h1, h3, h4⟩ := stQueue_passes cfg gen app hg hro word hx s hs
  intro r
  refine ⟨?_, holdsUntilTaken_eq cfg _ h3, ?_, ?_⟩
  · rw [transferred_taken_eq, h1]; exact List.take_prefix _ _
  · rcases h4 with ⟨-, -, a, -⟩ | ⟨s', h5, -⟩
    · exact a.elim
    · exact ⟨s', h5⟩
  · have := stQueue_complete cfg gen app hg hro word hx s hs
    unfold Complete at this
    rw [← this, List.dropLast_append_cons]
    simp [r]

/-- C99, proved part, no delay: without a valid generator, if at an edge a word that was appended before it remains to be transferred, then
the first such word is on offer at the next edge. -/
theorem C99_prompt_partial (cfg : StCfg) (app : Sched AvVal) (hg : Grows app) (hro : NotInReadOnly app)
    (word : AvVal → LogicArray) (hx : ∀ x ∈ everything app, ∃ d, createBinary x cfg.width false = .ok d ∧ d.bits = word x)
    (s : Sim StIn StOut) (hs : s.phase ≠ .ro) :
    Prompt cfg.hasReady (fun r ph => (app r ph).map word) 0 s.rest.length (withPending (stQueue cfg none app s)) :=
  stQueue_prompt cfg app hg hro word hx s hs

/-- C99, proved part, delivery, with any valid generator: if everything has been appended by the cycle with `r0` cycles after it, and at the
edges after the one that ends this cycle the sink can take a word at least as often as there are words and idle edges asked for by the
generator, then every word is transferred. -/
theorem C99_delivered_partial (cfg : StCfg) (gen : Option (List (Nat × Nat))) (app : Sched AvVal) (hg : Grows app) (hro : NotInReadOnly app)
    (word : AvVal → LogicArray) (hx : ∀ x ∈ everything app, ∃ d, createBinary x cfg.width false = .ok d ∧ d.bits = word x)
    (s : Sim StIn StOut) (hs : s.phase ≠ .ro) (r0 : Nat) (hr0 : r0 ≤ s.rest.length) (hall : app r0 .mid = everything app)
    (hready : (everything app).length + ((List.range (everything app).length).map (gapAt (usable (gen.getD [])))).sum ≤
      ((s.cur :: s.rest).dropLast.drop (s.rest.length - r0 + 1)).countP (fun i => decide (CanTake cfg.hasReady i))) :
    transferred cfg.hasReady (stQueue cfg gen app s).1 = (everything app).map word := by
  obtain ⟨-, -, -, h4⟩ := C99_in_order_partial cfg gen app hg hro word hx s hs
  rw [transferred_taken_eq]
  refine stQueue_delivers cfg gen app hg hro word hx s hs r0 hr0 hall (Nat.le_trans hready ?_)
  rw [← h4, ← List.map_drop, List.countP_map, List.countP_eq_length_filter, Nat.sub_add_comm hr0]
  refine Nat.le_of_eq (congrArg List.length (List.filter_congr fun q _ => ?_))
  obtain ⟨o, ⟨i⟩⟩ := q
  unfold stStream CanTake
  cases cfg.hasReady <;> cases i <;> simp

-- two words: one appended at once, one in the middle of a cycle after the first has been sent
/-- the words -/
def exAppWords : Sched AvVal := fun r ph =>
  if r ≥ 8 then [.int 5] else if r ≥ 4 ∧ ¬ (r = 4 ∧ ph = .mid) then [.int 5] else [.int 5, .int 6]

/-- the cycles: the sink stalls twice -/
def exQueueSim : Sim StIn StOut :=
  ⟨.mid, ⟨.x, []⟩, ⟨.one⟩, ⟨.one⟩, [⟨.one⟩, ⟨.zero⟩, ⟨.one⟩, ⟨.one⟩, ⟨.x⟩, ⟨.one⟩, ⟨.one⟩, ⟨.one⟩]⟩

/-- what is on the pins -/
def exQueueWord : AvVal → LogicArray
  | .int n => natToBits 8 n
  | _ => []

theorem exAppWords_grows : Grows exAppWords := by
  intro r
  unfold exAppWords
  by_cases h1 : r ≥ 8
  · rw [if_pos h1, if_pos h1, if_pos h1, if_pos (by omega)]
    simp
  · rw [if_neg h1, if_neg h1, if_neg h1]
    by_cases h2 : r + 1 ≥ 8
    · rw [if_pos h2]
      have : r = 7 := by omega
      subst this
      decide +kernel
    · rw [if_neg h2]
      have : r < 7 := by omega
      rcases r with _ | _ | _ | _ | _ | _ | _ | r
      all_goals first | decide +kernel | omega

example : Grows exAppWords ∧ NotInReadOnly exAppWords ∧
    (∀ x ∈ everything exAppWords, ∃ d, createBinary x 8 false = .ok d ∧ d.bits = exQueueWord x) ∧
    exAppWords 4 .mid = everything exAppWords ∧
    (everything exAppWords).length + ((List.range (everything exAppWords).length).map (gapAt (usable ((none : Option (List (Nat × Nat))).getD [])))).sum ≤ ((exQueueSim.cur :: exQueueSim.rest).dropLast.drop (exQueueSim.rest.length - 4 + 1)).countP
      (fun i => decide (CanTake true i)) ∧
    transferred true (stQueue ⟨8, true, true⟩ none exAppWords exQueueSim).1 = [natToBits 8 5, natToBits 8 6] := by
  refine ⟨exAppWords_grows, ?_, ?_, by decide +kernel, by decide +kernel, by decide +kernel⟩
  · intro r
    simp [exAppWords]
  · intro x hx
    have : everything exAppWords = [.int 5, .int 6] := by decide +kernel
    rw [this] at hx
    simp only [List.mem_cons, List.not_mem_nil, or_false] at hx
    rcases hx with rfl | rfl <;> exact ⟨_, rfl, rfl⟩

/-- C99 for packets, proved part: the beats transferred are those of the packets appended, in order; a beat offered is held until it is
taken; and the thread never ends. -/
theorem C99_packets_partial (c : PkCfg) (gen : Option (List (Nat × Nat))) (n : Nat) (hb : ByteBus c n) (app : Sched (Bytes × Option Int))
    (hg : Grows app) (hro : NotInReadOnly app) (hi : ∀ p ∈ everything app, p.1 ≠ [] ∧ ChannelOk c p.2) (s : Sim PkIn PkOut)
    (hs : s.phase ≠ .ro) :
    let r := pkQueue c gen app s
    (pkStream c).taken r.1 <+: (everything app).flatMap (fun p => beatsOf c n p.1 (p.2.getD 0).toNat) ∧
    (pkStream c).Holds (pending r) ∧ ∃ s', r.2 = .blocked s' := by
  obtain ⟨k, hk, h1, h3, h4⟩ := pkQueue_passes c gen n hb app hg hro hi s hs
  refine ⟨?_, h3, ?_⟩
  · rw [h1]; exact List.take_prefix _ _
  · rcases h4 with ⟨-, -, a, -⟩ | ⟨s', h5, -⟩
    · exact a.elim
    · exact ⟨s', h5⟩

/-- C99 for packets, proved part: and a monitor on the same bus reports exactly the packets appended, in order, up to the last one that has
been completed. -/
theorem C99_monitored_partial (c : PkCfg) (gen : Option (List (Nat × Nat))) (n : Nat) (hb : ByteBus c n) (h8 : c.bitsPerSymbol = 8)
    (app : Sched (Bytes × Option Int)) (hg : Grows app) (hro : NotInReadOnly app) (hi : ∀ p ∈ everything app, p.1 ≠ [] ∧ ChannelOk c p.2)
    (s : Sim PkIn PkOut) (hs : s.phase ≠ .ro) (hreset : ∀ i ∈ s.cur :: s.rest, inReset i.resetN i.reset = .ok false)
    (hnt : NoTimeout c (pkQueue c gen app s).1) :
    let t := (pkQueue c gen app s).1
    let reports := (everything app).map (fun p => reportOf c p.1 (c.channelW.map (fun _ => (p.2.getD 0).toNat)))
    ∃ st, pkMonitor c t {} = (reports.take (ended (beatsIn c t)), .ok st) := by
  obtain ⟨k, hk, h1, -, -⟩ := pkQueue_passes c gen n hb app hg hro hi s hs
  have hin : ∀ r ∈ (pkQueue c gen app s).1, inReset r.2.resetN r.2.reset = .ok false := by
    intro r hr
    refine hreset r.2 ?_
    rw [← show _ = s.cur :: s.rest from pkQueue_complete c gen n hb app hg hro hi s hs]
    exact List.mem_append_left _ (List.mem_map_of_mem hr)
  obtain ⟨⟨st, h5⟩, -⟩ := pkMonitor_driver c n hb ((everything app).map (fun p => ⟨p.1, true, p.2⟩)) (fun p hp => by
    obtain ⟨q, hq, rfl⟩ := List.mem_map.1 hp
    exact ⟨(hi q hq).1, (hi q hq).2, .inl h8⟩) _ hin hnt k (by rw [h1, List.flatMap_map])
  refine ⟨st, h5.trans ?_⟩
  rw [List.map_map]
  rfl

/-- C99 for packets, proved part, delivery, with any valid generator: if everything has been appended by the cycle with `r0` cycles after
it, and at the edges after the one that ends this cycle the sink can take a beat at least as often as there are beats and idle edges asked
for by the generator, then every packet is transferred, and a monitor on the same bus has reported every packet. -/
theorem C99_packets_delivered_partial (c : PkCfg) (gen : Option (List (Nat × Nat))) (n : Nat) (hb : ByteBus c n) (h8 : c.bitsPerSymbol = 8)
    (app : Sched (Bytes × Option Int)) (hg : Grows app) (hro : NotInReadOnly app) (hi : ∀ p ∈ everything app, p.1 ≠ [] ∧ ChannelOk c p.2)
    (s : Sim PkIn PkOut) (hs : s.phase ≠ .ro) (r0 : Nat) (hr0 : r0 ≤ s.rest.length) (hall : app r0 .mid = everything app)
    (hready :
      let beats := ((everything app).map (fun p => beatCount n p.1.length)).sum
      beats + ((List.range beats).map (gapAt (usable (gen.getD [])))).sum ≤
        ((s.cur :: s.rest).dropLast.drop (s.rest.length - r0 + 1)).countP (fun i => (pkStream c).ready i)) :
    let t := (pkQueue c gen app s).1
    (pkStream c).taken t = (everything app).flatMap (fun p => beatsOf c n p.1 (p.2.getD 0).toNat) ∧
    ((∀ i ∈ s.cur :: s.rest, inReset i.resetN i.reset = .ok false) → NoTimeout c t →
      ∃ st, pkMonitor c t {} = ((everything app).map (fun p => reportOf c p.1 (c.channelW.map (fun _ => (p.2.getD 0).toNat))), .ok st)) := by
  have hcomp := pkQueue_complete c gen n hb app hg hro hi s hs
  have hall' : (pkStream c).taken (pkQueue c gen app s).1 = (everything app).flatMap (fun p => beatsOf c n p.1 (chNum p.2)) := by
    refine pkQueue_delivers c gen n hb app hg hro hi s hs r0 hr0 hall (Nat.le_trans hready ?_)
    rw [← show _ = s.cur :: s.rest from hcomp, List.dropLast_concat, ← List.map_drop, List.countP_map, List.countP_eq_length_filter, Nat.sub_add_comm hr0]
    exact Nat.le_refl _
  refine ⟨hall', fun hreset hnt => ?_⟩
  have hin : ∀ r ∈ (pkQueue c gen app s).1, inReset r.2.resetN r.2.reset = .ok false := by
    intro r hr
    refine hreset r.2 ?_
    rw [← show _ = s.cur :: s.rest from hcomp]
    exact List.mem_append_left _ (List.mem_map_of_mem hr)
  obtain ⟨⟨st, h5⟩, h6⟩ := pkMonitor_driver c n hb ((everything app).map (fun p => ⟨p.1, true, p.2⟩)) (fun p hp => by
    obtain ⟨q, hq, rfl⟩ := List.mem_map.1 hp
    exact ⟨(hi q hq).1, (hi q hq).2, .inl h8⟩) _ hin hnt _ (by rw [hall', List.flatMap_map, List.take_length])
  refine ⟨st, h5.trans ?_⟩
  rw [h6 (by rw [List.flatMap_map]; exact Nat.le_refl _), List.take_of_length_le (by simp), List.map_map]
  rfl

/-- The verdict of a test in which packets are appended to the queue of a driver, and a monitor on the same bus reports to a scoreboard
that expects the list `E`. The scoreboard's state and the exception in the monitor, if any. -/
def queueLoopback (ops : TxnOps PkReport) (strict imm : Bool) (c : PkCfg) (gen : Option (List (Nat × Nat))) (app : Sched (Bytes × Option Int))
    (s : Sim PkIn PkOut) (E : List PkReport) : World PkReport × Option (Nat × PyErr) :=
  ((World.new imm (fun _ => E)).addInterface ops 0 (busMonitor none) (.list 0) .none 0 strict).1.receiveAll 0
    (pkMonitor c (pkQueue c gen app s).1 {}).1 0

/-- C99 and C83 together, proved part: whenever the packets are appended, if the sink is ready often enough after that, the test passes if and
only if the expected list is the list of packets appended; `fail_immediately` or not. -/
theorem C99_verdict_partial (ops : TxnOps PkReport) (strict imm : Bool) (hops : ∀ a b, Accepts ops strict a b ↔ a = b)
    (c : PkCfg) (gen : Option (List (Nat × Nat))) (n : Nat) (hb : ByteBus c n) (h8 : c.bitsPerSymbol = 8) (hnt : c.invalidTimeout = 0)
    (app : Sched (Bytes × Option Int)) (hg : Grows app) (hro : NotInReadOnly app) (hi : ∀ p ∈ everything app, p.1 ≠ [] ∧ ChannelOk c p.2)
    (s : Sim PkIn PkOut) (hs : s.phase ≠ .ro) (hreset : ∀ i ∈ s.cur :: s.rest, inReset i.resetN i.reset = .ok false)
    (r0 : Nat) (hr0 : r0 ≤ s.rest.length) (hall : app r0 .mid = everything app)
    (hready :
      let beats := ((everything app).map (fun p => beatCount n p.1.length)).sum
      beats + ((List.range beats).map (gapAt (usable (gen.getD [])))).sum ≤
        ((s.cur :: s.rest).dropLast.drop (s.rest.length - r0 + 1)).countP (fun i => (pkStream c).ready i)) (E : List PkReport) :
    (queueLoopback ops strict imm c gen app s E).1.sb.result = .ok () ↔
      E = (everything app).map (fun p => reportOf c p.1 (c.channelW.map (fun _ => (p.2.getD 0).toNat))) := by
  obtain ⟨-, h1⟩ := C99_packets_delivered_partial c gen n hb h8 app hg hro hi s hs r0 hr0 hall hready
  obtain ⟨st, h1⟩ := h1 hreset (.inl hnt)
  unfold queueLoopback
  rw [h1]
  exact verdict_iff ops strict imm hops E _

-- two packets, the second appended while the first is being sent
/-- the packets -/
def exAppPkts : Sched (Bytes × Option Int) := fun r _ => if r ≥ 6 then [([1, 2, 3, 4, 5, 6], some 5)] else [([1, 2, 3, 4, 5, 6], some 5), ([7], none)]

example : Grows exAppPkts ∧ NotInReadOnly exAppPkts ∧ ByteBus (exCfg 4 true) 4 ∧
    (∀ p ∈ everything exAppPkts, p.1 ≠ [] ∧ ChannelOk (exCfg 4 true) p.2) ∧
    (pkMonitor (exCfg 4 true) (pkQueue (exCfg 4 true) none exAppPkts exPkSim).1 {}).1 =
      [⟨[1, 2, 3, 4, 5, 6], some (some 5)⟩, ⟨[7], some (some 0)⟩] ∧
    -- all is appended by the cycle with 5 cycles after it, and the sink is ready often enough for the three beats and the idle edge
    exAppPkts 5 .mid = everything exAppPkts ∧
    (let beats := ((everything exAppPkts).map (fun p => beatCount 4 p.1.length)).sum
     beats = 3 ∧ ((List.range beats).map (gapAt (usable [(2, 1)]))).sum = 1 ∧
     beats + ((List.range beats).map (gapAt (usable [(2, 1)]))).sum ≤
        ((exPkSim.cur :: exPkSim.rest).dropLast.drop (exPkSim.rest.length - 5 + 1)).countP (fun i => (pkStream (exCfg 4 true)).ready i)) ∧
    (queueLoopback repOps true true (exCfg 4 true) (some [(2, 1)]) exAppPkts exPkSim
      [⟨[1, 2, 3, 4, 5, 6], some (some 5)⟩, ⟨[7], some (some 0)⟩]).1.sb.result = .ok () := by
  refine ⟨fun r => ⟨List.prefix_refl _, List.prefix_refl _, ?_⟩, fun r => rfl, exCfg_bus, ?_, by decide +kernel, by decide +kernel, by decide +kernel,
    by decide +kernel⟩
  · unfold exAppPkts
    by_cases h1 : r ≥ 6
    · rw [if_pos h1, if_pos (by omega)]
      exact List.prefix_refl _
    · rw [if_neg h1]
      split <;> simp
  · intro p hp
    simp only [everything, exAppPkts] at hp
    rcases (by simpa using hp : p = ([1, 2, 3, 4, 5, 6], some 5) ∨ p = ([7], none)) with rfl | rfl <;> simp [ChannelOk, exCfg]

/-- a word appended in the ReadOnly phase of the second cycle, while the thread waits -/
def exAppRO : Sched AvVal := fun r ph => if r ≥ 4 ∨ (r = 3 ∧ ph = .edge) then [] else [.int 5]

theorem exAppRO_grows : Grows exAppRO := by
  intro r
  unfold exAppRO
  by_cases h1 : r ≥ 4
  · have h2 : r + 1 ≥ 4 := by omega
    simp [h1]
    omega
  · by_cases h2 : r = 3
    · subst h2; decide +kernel
    · have h3 : ¬ r + 1 ≥ 4 := by omega
      simp [h1, h2, h3]

/-- C99 is false of the code: `append()` is allowed in the ReadOnly phase, but the waiting thread is resumed in that phase and writes to
the bus; the exception ends it, and the word is never sent, nor is any appended later. -/
theorem C99_violated :
    let s : Sim StIn StOut := ⟨.mid, ⟨.x, []⟩, ⟨.one⟩, ⟨.one⟩, List.replicate 4 ⟨.one⟩⟩
    Grows exAppRO ∧ everything exAppRO = [.int 5] ∧ transferred true (stQueue ⟨8, true, true⟩ none exAppRO s).1 = [] ∧
    (stQueue ⟨8, true, true⟩ none exAppRO s).2.sim.rest.length = 3 ∧
    ∃ s', (stQueue ⟨8, true, true⟩ none exAppRO s).2 = .err .readOnlyWrite s' := by
  refine ⟨exAppRO_grows, by decide +kernel, by decide +kernel, by decide +kernel, _, rfl⟩

end CocotbBus
