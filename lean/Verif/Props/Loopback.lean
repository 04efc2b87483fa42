import Verif.Props.Session

/-! # C96: Avalon-ST driver, monitor and scoreboard together (no packets) -/

namespace CocotbBus
open Spec Coro

/-- The verdict of a loopback test: a driver sends byte strings, a monitor on the same bus reports to a scoreboard that expects
the list `E`. -/
def stLoopback (ops : TxnOps Bytes) (strict imm : Bool) (cfg : StCfg) (acts : List (Act (AvVal × Bool))) (s : Sim StIn StOut) (E : List Bytes) :
    World Bytes × Option (Nat × PyErr) :=
  ((World.new imm (fun _ => E)).addInterface ops 0 (busMonitor none) (.list 0) .none 0 strict).1.receiveAll 0
    (stMonitor cfg (stTest cfg acts s).1).1 0

/-- The byte strings among the values. -/
def asBytes : AvVal → Bytes
  | .bytes b => b
  | _ => []

/-- what the monitor reports of a use of the driver with byte strings as wide as the bus -/
theorem stTest_monitored (n : Nat) (hasReady highFirst : Bool) (acts : List (Act (AvVal × Bool)))
    (hl : ∀ x ∈ sends acts, ∃ b, x.1 = .bytes b ∧ b.length = n) (s : Sim StIn StOut) (hs : s.phase ≠ .ro) :
    let cfg : StCfg := ⟨8 * n, hasReady, highFirst⟩
    let R := (sends acts).map (fun x => if highFirst then (asBytes x.1).reverse else asBytes x.1)
    ∃ k, stMonitor cfg (stTest cfg acts s).1 = (R.take k, none) ∧
      (∀ v' s', (stTest cfg acts s).2 = .ok v' s' → stMonitor cfg (stTest cfg acts s).1 = (R, none)) := by
  intro cfg R
  have hx : ∀ x ∈ sends acts, ∃ d, createBinary x.1 cfg.width false = .ok d ∧ d.bits = joinBytes (asBytes x.1).reverse := by
    intro x hx
    obtain ⟨b, h, hb⟩ := hl x hx
    have := createBinaryBytes_eq b n false (by omega)
    simp only [hb, Nat.sub_self, List.replicate_zero, List.nil_append, Bool.false_eq_true, if_false] at this
    rw [h]
    exact ⟨_, this, rfl⟩
  obtain ⟨k, hk, h1, -, h4⟩ := stTest_passes cfg acts (fun x => joinBytes (asBytes x).reverse) hx s hs
  have hm : stMonitor cfg (stTest cfg acts s).1 = (R.take k, none) := by
    rw [stMonitor_bytes cfg (((sends acts).map (fun x => (asBytes x.1).reverse)).take k) _ (by
      rw [transferred_taken_eq, h1]
      simp [List.map_take, Function.comp_def])]
    congr 1
    simp only [R, List.map_take, List.map_map]
    congr 1
    apply List.map_congr_left
    intro x _
    cases highFirst <;> simp [cfg]
  refine ⟨k, hm, fun v' s' h => ?_⟩
  rcases h4 with ⟨h4, -⟩ | ⟨s2, h5, -⟩
  · rw [hm, List.take_of_length_le (by simp only [R, List.length_map] at h4 ⊢; omega)]
  · rw [h5] at h; cases h

/-- C96 is false of the code: with the default configuration, whatever the words (byte strings as wide as the bus), the pauses, the
valid generators and the schedule of `ready`: once the sends have returned, the test passes if and only if the expected list consists of
the sent words *reversed*. -/
theorem C96_reversed (ops : TxnOps Bytes) (strict imm : Bool) (hops : ∀ a b, Accepts ops strict a b ↔ a = b)
    (n : Nat) (hasReady : Bool) (acts : List (Act (AvVal × Bool)))
    (hl : ∀ x ∈ sends acts, ∃ b, x.1 = .bytes b ∧ b.length = n) (s : Sim StIn StOut) (hs : s.phase ≠ .ro) (E : List Bytes)
    (v' : Valids) (s' : Sim StIn StOut) (hdone : (stTest { width := 8 * n, hasReady := hasReady } acts s).2 = .ok v' s') :
    (stLoopback ops strict imm { width := 8 * n, hasReady := hasReady } acts s E).1.sb.result = .ok () ↔
      E = (sends acts).map (fun x => (asBytes x.1).reverse) := by
  obtain ⟨k, -, h⟩ := stTest_monitored n hasReady true acts hl s hs
  unfold stLoopback
  rw [show stMonitor { width := 8 * n, hasReady := hasReady } (stTest { width := 8 * n, hasReady := hasReady } acts s).1 = _ from h v' s' hdone]
  exact verdict_iff ops strict imm hops E _

/-- C96, proved part: with `firstSymbolInHighOrderBits=False` on the monitor the test passes if and only if the expected list is the list of
words sent. Missing: the default configuration (`C96_violated`). -/
theorem C96_low_first_partial (ops : TxnOps Bytes) (strict imm : Bool) (hops : ∀ a b, Accepts ops strict a b ↔ a = b)
    (n : Nat) (hasReady : Bool) (acts : List (Act (AvVal × Bool)))
    (hl : ∀ x ∈ sends acts, ∃ b, x.1 = .bytes b ∧ b.length = n) (s : Sim StIn StOut) (hs : s.phase ≠ .ro) (E : List Bytes)
    (v' : Valids) (s' : Sim StIn StOut) (hdone : (stTest ⟨8 * n, hasReady, false⟩ acts s).2 = .ok v' s') :
    (stLoopback ops strict imm ⟨8 * n, hasReady, false⟩ acts s E).1.sb.result = .ok () ↔ E = (sends acts).map (fun x => asBytes x.1) := by
  obtain ⟨k, -, h⟩ := stTest_monitored n hasReady false acts hl s hs
  unfold stLoopback
  rw [show stMonitor ⟨8 * n, hasReady, false⟩ (stTest ⟨8 * n, hasReady, false⟩ acts s).1 = _ from h v' s' hdone]
  exact verdict_iff ops strict imm hops E _

/-- C96, proved part: and at no time before is there an exception or an error. -/
theorem C96_no_false_alarm_partial (ops : TxnOps Bytes) (strict imm : Bool) (hops : ∀ a b, Accepts ops strict a b ↔ a = b)
    (n : Nat) (hasReady : Bool) (acts : List (Act (AvVal × Bool)))
    (hl : ∀ x ∈ sends acts, ∃ b, x.1 = .bytes b ∧ b.length = n) (s : Sim StIn StOut) (hs : s.phase ≠ .ro) :
    let r := stLoopback ops strict imm ⟨8 * n, hasReady, false⟩ acts s ((sends acts).map (fun x => asBytes x.1))
    r.2 = none ∧ r.1.sb.errors = 0 := by
  obtain ⟨k, h, -⟩ := stTest_monitored n hasReady false acts hl s hs
  unfold stLoopback
  rw [h]
  exact no_alarm ops strict imm hops _ _

/-- byte strings as Python values -/
def bytesOps : TxnOps Bytes where
  eq := fun a b => a == b
  ty := fun _ => 0
  str := fun a => toString (repr (a.map BitVec.toNat))

example : ∀ a b, Accepts bytesOps true a b ↔ a = b := by simp [Accepts, bytesOps]

/-- two words of two bytes with a pause and a generator -/
def exStActs : List (Act (AvVal × Bool)) := [.pause 1, .send (.bytes [1, 2], true), .gen (some [(1, 1)]), .send (.bytes [3, 4], false)]

/-- where they are sent -/
def exStSim : Sim StIn StOut := ⟨.mid, ⟨.x, []⟩, ⟨.one⟩, ⟨.one⟩, [⟨.one⟩, ⟨.zero⟩, ⟨.x⟩, ⟨.one⟩, ⟨.one⟩, ⟨.one⟩, ⟨.one⟩, ⟨.one⟩]⟩

example : ∀ x ∈ sends exStActs, ∃ b, x.1 = .bytes b ∧ b.length = 2 := by
  intro x hx
  simp only [exStActs, sends, List.mem_cons, List.not_mem_nil, or_false] at hx
  rcases hx with rfl | rfl <;> exact ⟨_, rfl, rfl⟩

/-- C96 is false of the code: two words sent and expected, and the test fails. -/
theorem C96_violated : (stTest { width := 16, hasReady := true } exStActs exStSim).2.isOk = true ∧
    (stLoopback bytesOps true false { width := 16, hasReady := true } exStActs exStSim [[1, 2], [3, 4]]).1.sb.result ≠ .ok () ∧
    (stLoopback bytesOps true false { width := 16, hasReady := true } exStActs exStSim [[1, 2], [3, 4]]).1.sb.errors = 2 := by
  refine ⟨?_, ?_, ?_⟩ <;> decide +kernel

-- and with the monitor configured the other way round it passes
example : (stLoopback bytesOps true true ⟨16, true, false⟩ exStActs exStSim [[1, 2], [3, 4]]).1.sb.result = .ok () := by decide +kernel

end CocotbBus
