import Verif.Proof.MmHw
import Verif.Proof.MmExists
import Verif.Proof.Closed
import Verif.Proof.HeldBus

/-! # C126: a master and a memory in hardware -/

namespace CocotbBus
open Spec Coro

/-- C126: any writes and reads of an `AvalonMaster`, with or without `readdatavalid`, on the memory of the tests, which answers at once and never takes back
`readdatavalid`. The reads return what a memory returns; there is never an exception; each write and each read takes at most two edges. -/
theorem C126_memory (words : Nat) (c : MmCfg) (hr : c.hasRead = true) (hw : c.hasWrite = true) (ops : List MmOp) (hops : ∀ op ∈ ops, OpOk c op ∧ InMemory words op)
    (init : Nat → Option Nat) (d : MmHw) (hd : MmHw.Holds words c.dataW d init) (o : MmOut) (s : Sim MmIn MmOut) (hs : s.out = mmInit c o)
    (hwait : c.hasWait = true → ∀ i ∈ s.rest, i.waitrequest = .zero) :
    let r := mmUse c ops s
    d.Drives words r.2.1 r.2.2.sim.cur →
    (∃ l, r.1 ++ l = readsOf c.dataW init ops) ∧
    (∀ e s', r.2.2 ≠ .err e s') ∧
    (r.2.2.isOk = true → r.1 = readsOf c.dataW init ops) ∧
    (edgesFor 0 ops ≤ s.rest.length → r.2.2.isOk = true) := by
  intro r hdr
  exact mmHw_good words c hr hw ops init d s hops ⟨by rw [hs]; exact mmInit_quiet c o, by rw [hs]; rfl⟩ hwait hd hdr

/-- C126: the test itself, with any number of values that fit: it reads what it wrote, within six edges for each value. -/
theorem C126_test (words : Nat) (c : MmCfg) (hr : c.hasRead = true) (hw : c.hasWrite = true) (values : List Nat) (hv : ∀ v ∈ values, v < 2 ^ c.dataW)
    (hn : values.length ≤ words) (ha : values.length ≤ 2 ^ c.addrW)
    (init : Nat → Option Nat) (d : MmHw) (hd : MmHw.Holds words c.dataW d init) (o : MmOut) (s : Sim MmIn MmOut) (hs : s.out = mmInit c o)
    (hwait : c.hasWait = true → ∀ i ∈ s.rest, i.waitrequest = .zero) (henough : 6 * values.length ≤ s.rest.length) :
    let r := mmUse c (mmHwTest values) s
    d.Drives words r.2.1 r.2.2.sim.cur → r.2.2.isOk = true ∧ r.1 = values.map (natToBits c.dataW) := by
  intro r hdr
  obtain ⟨-, -, h3, h4⟩ := C126_memory words c hr hw (mmHwTest values) (mmHwTest_ok words c hr hw values hv hn ha) init d hd o s hs hwait hdr
  have hok := h4 (by rw [mmHwTest_edges]; exact henough)
  exact ⟨hok, (h3 hok).trans (mmHwTest_reads c.dataW init values)⟩

/-- C126: there is such a simulation of every length, for all calls and all contents of the memory. -/
theorem C126_exists (words : Nat) (c : MmCfg) (hr : c.hasRead = true) (hw : c.hasWrite = true) (ops : List MmOp) (d : MmHw) (o : MmOut) (N : Nat) :
    ∃ s : Sim MmIn MmOut, s.out = mmInit c o ∧ (∀ i ∈ s.rest, i.waitrequest = .zero) ∧ s.rest.length = N ∧
      d.Drives words (mmUse c ops s).2.1 (mmUse c ops s).2.2.sim.cur := by
  have hoff : mmOffers (mmInit c o) = false := by simp [mmOffers, mmInit, hr, hw]
  obtain ⟨i, R, h1, h2, h3⟩ := closed_exists (fun d o => MmHw.step words d o) (fun d i => (i.readdata = d.readdata ∧ i.readdatavalid = Logic.ofBool d.rdv) ∧ i.waitrequest = .zero)
    (fun d => ⟨⟨.zero, Logic.ofBool d.rdv, d.readdata⟩, ⟨rfl, rfl⟩, rfl⟩) (mmRun c ops) (Causal.mmRun c ops) (fun i R => ⟨.mid, mmInit c o, i, i, R⟩)
    (fun i R j => rfl) (fun i R => by rw [← mmUse_run]; exact Hold.mmUse_paced c ops _ ⟨.mid, mmInit c o, i, i, R⟩ (Hold.quiet_start _ hoff)) d N
  refine ⟨⟨.mid, mmInit c o, i, i, R⟩, rfl, fun j hj => (h2 j (by simp [show j ∈ R from hj])).elim fun _ h => h.2, h1, ?_⟩
  rw [mmUse_run]
  have conv : ∀ (t : List (MmOut × MmIn)) (d : MmHw) (i : MmIn), Answers (fun d o => MmHw.step words d o)
      (fun d (i : MmIn) => (i.readdata = d.readdata ∧ i.readdatavalid = Logic.ofBool d.rdv) ∧ i.waitrequest = .zero) d t i → d.Drives words t i := by
    intro t
    induction t with
    | nil => intro d i h; exact h.1
    | cons q t ih => intro d i h; exact ⟨h.1.1, ih _ i h.2⟩
  exact conv _ d _ h3

/-! ### Not vacuous -/

/-- four words of 8 bits; the master has a `waitrequest` and a `readdatavalid`, as in the tests -/
def exHwBus : MmCfg := { addrW := 2, dataW := 8 }
def exHwInit : Nat → Option Nat := fun a => if a = 3 then some 9 else none
def exHwMem : MmHw := ⟨fun a => memWordBits 8 (exHwInit a), List.replicate 8 .x, false⟩
def exHwIdle : MmIn := ⟨.zero, .zero, List.replicate 8 .x⟩
def exHwSim (rest : List MmIn) : Sim MmIn MmOut := ⟨.mid, mmInit exHwBus ⟨[], [], [], .x, .x, .x, false⟩, exHwIdle, exHwIdle, rest⟩

def hwDrivesDec (words : Nat) : (d : MmHw) → (t : List (MmOut × MmIn)) → (i : MmIn) → Decidable (d.Drives words t i)
  | d, [], i => inferInstanceAs (Decidable (i.readdata = d.readdata ∧ i.readdatavalid = Logic.ofBool d.rdv))
  | d, q :: t, i =>
    have := hwDrivesDec words (d.step words q.1) t i
    inferInstanceAs (Decidable ((q.2.readdata = d.readdata ∧ q.2.readdatavalid = Logic.ofBool d.rdv) ∧ _))

instance instDecidableHwDrives (words : Nat) (d : MmHw) (t : List (MmOut × MmIn)) (i : MmIn) : Decidable (d.Drives words t i) := hwDrivesDec words d t i

/-- a write, reads of the word written, of one that had a value before and of one that had none -/
example : let ops : List MmOp := [.write 1 200, .read 1, .read 3, .pause 1, .write 3 7, .read 2, .read 3]
    let s := exHwSim (List.replicate 3 exHwIdle ++ List.replicate 2 ⟨.zero, .one, natToBits 8 200⟩ ++ List.replicate 5 ⟨.zero, .one, natToBits 8 9⟩ ++
      List.replicate 2 ⟨.zero, .one, List.replicate 8 .x⟩ ++ List.replicate 4 ⟨.zero, .one, natToBits 8 7⟩)
    (∀ op ∈ ops, OpOk exHwBus op ∧ InMemory 4 op) ∧ MmHw.Holds 4 8 exHwMem exHwInit ∧ s.out = mmInit exHwBus ⟨[], [], [], .x, .x, .x, false⟩ ∧
    (∀ i ∈ s.rest, i.waitrequest = .zero) ∧ exHwMem.Drives 4 (mmUse exHwBus ops s).2.1 (mmUse exHwBus ops s).2.2.sim.cur ∧ edgesFor 0 ops ≤ s.rest.length ∧
    (mmUse exHwBus ops s).1 = [natToBits 8 200, natToBits 8 9, List.replicate 8 .x, natToBits 8 7] := by
  refine ⟨?_, fun a _ => rfl, rfl, by decide +kernel, by decide +kernel, by decide, by decide +kernel⟩
  intro op hop
  simp only [List.mem_cons, List.not_mem_nil, or_false] at hop
  rcases hop with rfl | rfl | rfl | rfl | rfl | rfl | rfl <;> simp [OpOk, InMemory, exHwBus]

/-- the test with two values -/
example : let s := exHwSim (List.replicate 7 exHwIdle ++ List.replicate 3 ⟨.zero, .one, natToBits 8 50⟩ ++ List.replicate 2 ⟨.zero, .one, natToBits 8 60⟩)
    (∀ i ∈ s.rest, i.waitrequest = .zero) ∧
    exHwMem.Drives 4 (mmUse exHwBus (mmHwTest [50, 60]) s).2.1 (mmUse exHwBus (mmHwTest [50, 60]) s).2.2.sim.cur ∧ 6 * 2 ≤ s.rest.length ∧
    (mmUse exHwBus (mmHwTest [50, 60]) s).1 = [natToBits 8 50, natToBits 8 60] := by
  refine ⟨by decide +kernel, by decide +kernel, by decide, by decide +kernel⟩

end CocotbBus
