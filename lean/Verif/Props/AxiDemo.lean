import Verif.Proof.AxiDemoUse
import Verif.Proof.CausalAx

/-! # C119: an AXI4-Lite master and the AXI4-Lite slave example -/

namespace CocotbBus
open Spec Coro

/-- C119: any sequence of `write` and `read` calls of an `AXI4LiteMaster`, and of pauses, on the device of the example, starting with any values
in its registers. The input signals at every edge are those that the device drives. If the clock runs for as many edges as `regCost`
allows the calls, each of them returns or raises: a read of a register returns the value written last, accesses above the registers raise
DECERR and change nothing, and nothing else is raised. After the last call, and at all later edges while the test makes no further call,
the registers contain the values written last. -/
theorem C119_registers (r : Regs) (started : Bool) (ops : List AxOp) (hops : ∀ op ∈ ops, RegOp op) (hsp : Spaced false ops)
    (s : Sim AxIn AxAll) (hs : s.phase ≠ .ro ∧ s.out.1.1.valid = .zero ∧ s.out.1.2.valid = .zero ∧ s.out.2.valid = .zero)
    (hlen : (ops.map regCost).sum ≤ s.rest.length) :
    let d := DemoDev.fresh started r.r0 r.r4
    let x := axUse (AxCfg.lite 32 4) ops s
    d.Drives (wholeRun x.2) →
      result x.2 = some (.ok ()) ∧ x.1 = r.outcomes ops ∧ x.2.1.length ≤ (ops.map regCost).sum ∧
      ∀ k, (d.run ((wholeRun x.2).take (x.2.1.length + k))).temp0 = (r.final ops).r0 ∧ (d.run ((wholeRun x.2).take (x.2.1.length + k))).temp1 = (r.final ops).r4 := by
  intro d x hd
  have h : d.Rest false r := by
    refine ⟨rfl, rfl, rfl, rfl, rfl, fun _ => rfl, rfl, fun h => (by cases h), rfl, rfl⟩
  obtain ⟨s', h1, h2, h3, h4, hot', h5⟩ := demo_use ops false r d s hops hsp hs h hd hlen
  refine ⟨by unfold result; rw [show x.2.2 = _ from h1], h3, h4, fun k => ?_⟩
  have e : (wholeRun x.2).take (x.2.1.length + k) = x.2.1 ++ ((x.2.2.sim.cur :: x.2.2.sim.rest).take k).map (fun i => (x.2.2.sim.out, i)) := by
    rw [wholeRun, List.take_length_add_append, ← List.map_take]
  rw [e, demoRun_append]
  have hd2 : (d.run x.2.1).Drives (((x.2.2.sim.cur :: x.2.2.sim.rest).take k).map (fun i => (x.2.2.sim.out, i))) := by
    rw [wholeRun, drives_append] at hd
    have := hd.2
    rw [← List.take_append_drop k (x.2.2.sim.cur :: x.2.2.sim.rest), List.map_append, drives_append] at this
    exact this.1
  refine demo_idle x.2.2.sim.out ?_ _ h5 hd2
  rw [show x.2.2 = _ from h1]
  exact ⟨h2.2.1, h2.2.2.2⟩

/-- C119: there is such a simulation of every length, for all calls (those of the property and others), starting at any point of a time step and
with any signals and any state of the device. -/
theorem C119_exists (c : AxCfg) (ops : List AxOp) (d : DemoDev) (ph : Phase) (o : AxAll) (N : Nat) :
    ∃ s : Sim AxIn AxAll, s.phase = ph ∧ s.out = o ∧ s.rest.length = N ∧ d.Drives (wholeRun (axUse c ops s).2) := by
  obtain ⟨s, h1, h2, h3, h4⟩ := CausalW.closed (CausalW.axUse c ops) (axUse_good c ops) (fun d q => DemoDev.step d q.1) DemoDev.pins d ph o N
  refine ⟨s, h1, h2, h3, ?_⟩
  have conv : ∀ (t : List (AxAll × AxIn)) (d : DemoDev), DrivenBy (fun d q => DemoDev.step d q.1) DemoDev.pins d t → d.Drives t := by
    intro t
    induction t with
    | nil => intro d h; trivial
    | cons q t ih => intro d h; exact ⟨h.1, ih _ h.2⟩
  exact conv _ d h4

instance DemoDev.drivesDecidable : (d : DemoDev) → (t : List (AxAll × AxIn)) → Decidable (d.Drives t)
  | _, [] => .isTrue trivial
  | d, q :: t => by
    have := DemoDev.drivesDecidable (d.step q.1) t
    unfold DemoDev.Drives
    infer_instance

/-- the signals of the device, given those of the master -/
def demoPins : DemoDev → List AxAll → List AxIn
  | _, [] => []
  | d, o :: r => d.pins :: demoPins (d.step o) r

def demoQuiet : AxAll := ((⟨.zero, [], [], [], []⟩, ⟨.zero, [], [], .zero⟩), ⟨.zero, [], [], [], []⟩)

def demoSim (l : List AxIn) : Sim AxIn AxAll := ⟨.edge, demoQuiet, DemoDev.reset.pins, l.headD DemoDev.reset.pins, l.tail⟩

/-- a simulation of `n` edges: the signals at the first `k` of them are right after `k` rounds -/
def demoRounds (ops : List AxOp) (n : Nat) : Nat → List AxIn
  | 0 => List.replicate n DemoDev.reset.pins
  | k + 1 => demoPins DemoDev.reset ((wholeRun (axUse (AxCfg.lite 32 4) ops (demoSim (demoRounds ops n k))).2).map Prod.fst)

/-- The calls of the tests of the example: a write and a read of register 0, then accesses to an address that does not exist. -/
def demoTest : List AxOp := [.liteWrite 0 0xAB none 0 0 true, .pause 2, .liteRead 0 true, .liteWrite 8 0xAB none 0 0 true, .liteRead 8 true]

example : (∀ op ∈ demoTest, RegOp op) ∧ Spaced false demoTest ∧ (demoTest.map regCost).sum ≤ (demoSim (demoRounds demoTest 40 40)).rest.length := by
  refine ⟨?_, ?_, ?_⟩
  · intro op hop
    simp only [demoTest, List.mem_cons, List.not_mem_nil, or_false] at hop
    rcases hop with rfl | rfl | rfl | rfl | rfl <;> simp [RegOp]
  · simp [Spaced, demoTest]
  · decide +kernel

example : DemoDev.reset.Drives (wholeRun (axUse (AxCfg.lite 32 4) demoTest (demoSim (demoRounds demoTest 40 40))).2) := by decide +kernel

example : Regs.outcomes ⟨0, 0⟩ demoTest = [.ok [], .ok [], .ok [natToBits 32 0xAB], .error (.axiProtocol 3), .error (.axiProtocol 3)] ∧ Regs.final ⟨0, 0⟩ demoTest = ⟨0xAB, 0⟩ := by decide

/-- The condition `Spaced` is needed: WREADY of the device is still 1 at the edge after a write has ended. A write without `sync` puts its data
on the bus at that edge, they count as accepted, the device does not store them and waits for data that never come. -/
def demoTight : List AxOp := [.liteWrite 0 0xAB none 0 0 true, .liteWrite 4 1 none 0 0 false]

example : ¬Spaced false demoTight := by simp [Spaced, demoTight]
example : let s := demoSim (demoRounds demoTight 40 40)
    let x := axUse (AxCfg.lite 32 4) demoTight s
    (demoTight.map regCost).sum ≤ s.rest.length ∧ DemoDev.reset.Drives (wholeRun x.2) ∧ result x.2 = none ∧ x.1 = [.ok []] ∧ (DemoDev.reset.run (wholeRun x.2)).st = .receiveWriteData ∧
      (DemoDev.reset.run (wholeRun x.2)).temp1 = 0 := by decide +kernel

end CocotbBus
