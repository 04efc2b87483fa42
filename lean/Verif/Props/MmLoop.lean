import Verif.Proof.MmExists
import Verif.Proof.MmStale

/-! # Properties C84 and C85: an `AvalonMaster` and an `AvalonMemory` on one bus -/

namespace CocotbBus
open Spec Coro

/-- what the memory sees; what the master drives after the last cycle does not matter -/
def memInputs (c : MmCfg) (ops : List MmOp) (sM : Sim MmIn MmOut) (sS : Sim MemIn MemOut) : List MemIn :=
  sS.rest ++ [memSees (drivenIn (mmUse c ops sM).2 (sS.rest.length + 1))]

theorem joint_of_wired (c : MmCfg) (m : MemCfg) (hb : OneBus c m) (hm : SingleMem m) (rand : Nat → Nat)
    (init : Nat → Option Nat) (hinit : ∀ a v, init a = some v → v < 256 ^ (m.width / 8)) (o1 : MmOut) (o2 : MemOut)
    (ops : List MmOp) (sM : Sim MmIn MmOut) (sS : Sim MemIn MemOut)
    (hM : sM.out = mmInit c o1) (hS : memInit m init o2 = .ok sS.out)
    (hwired : Wired sM (mmUse c ops sM).2 sS (memRespond m rand sS)) :
    Joint c m rand sS.out (sM.cur :: sM.rest) (memInputs c ops sM sS) sM.rest.length ∧ Quiet c sM.out ∧ MemFresh m init sS.out.drawn sS.out ∧
    ∀ k i, (memInputs c ops sM sS)[0 + k]? = some i → i = memSees (drivenIn (mmUse c ops sM).2 (k + 1)) := by
  have hq : Quiet c sM.out := by rw [hM]; exact mmInit_quiet c o1
  obtain ⟨hfresh, hwait⟩ := memInit_fresh c m sS.out hb init hinit o2 hS
  have hclean : ∀ i ∈ sS.rest, MemClean m i := by
    intro i hi
    obtain ⟨n, hn⟩ := List.getElem?_of_mem hi
    rw [hwired.toMemory (n + 1) i hn]
    exact (drivenIn_safe c ops sM hq _).clean hb
  have hdr := mem_driven m rand sS.out hm init hfresh sS rfl hclean
  refine ⟨⟨hb, hm, by simp [memInputs, hwired.cycles], by simp, ?_, fun h => hwait (by rw [hb.wait]; exact h)⟩, hq, hfresh, ?_⟩
  · intro n hn
    obtain ⟨x, hx⟩ := getElem?_of_lt (sM.cur :: sM.rest) n (by simp; omega)
    have hn' : n ≤ sS.rest.length := by rw [hwired.cycles]; exact hn
    rw [hx, hwired.toMaster n _ hx, hdr n hn']
    unfold memAt memInputs
    rw [List.take_append_of_le_length hn']
  · intro k i hi
    rw [Nat.zero_add] at hi
    by_cases hk : k < sS.rest.length
    · unfold memInputs at hi
      rw [List.getElem?_append_left hk] at hi
      exact hwired.toMemory (k + 1) i hi
    · have hl := (List.getElem?_eq_some_iff.1 hi).1
      have : k = sS.rest.length := by simp [memInputs] at hl; omega
      subst this
      simpa [memInputs] using hi.symm

/-- C84, for a bus with readdatavalid (any latency), or without it and a memory of latency 0. -/
theorem C84_general (c : MmCfg) (m : MemCfg) (hb : OneBus c m) (hm : SingleMem m) (hd : c.hasRdv = true ∨ m.latMax = 0) (rand : Nat → Nat)
    (init : Nat → Option Nat) (hinit : ∀ a v, init a = some v → v < 256 ^ (m.width / 8)) (o1 : MmOut) (o2 : MemOut)
    (ops : List MmOp) (hops : ∀ op ∈ ops, OpOk c op) (sM : Sim MmIn MmOut) (sS : Sim MemIn MemOut)
    (hM : sM.out = mmInit c o1) (hS : memInit m init o2 = .ok sS.out)
    (hwired : Wired sM (mmUse c ops sM).2 sS (memRespond m rand sS)) :
    let r := mmUse c ops sM
    (∃ l, r.1 ++ l = readsOf c.dataW init ops) ∧
    (∀ e s', r.2.2 ≠ .err e s') ∧
    (r.2.2.isOk = true → r.1 = readsOf c.dataW init ops) ∧
    (edgesFor m.latMax ops ≤ sM.rest.length → r.2.2.isOk = true) := by
  obtain ⟨hj, hq, hfresh, hX⟩ := joint_of_wired c m hb hm rand init hinit o1 o2 ops sM sS hM hS hwired
  have := use_main hj hd ops sM 0 init hops ⟨rfl, ⟨hq, by rw [hM]; rfl⟩, hfresh.resp, hfresh.mem⟩ hX
  rw [Nat.zero_add, ← hb.width] at this
  exact this

/-- C84: an `AvalonMaster` and an `AvalonMemory` on one bus with readdatavalid. For every sequence of reads, writes and pauses, all
latencies and all initial contents: the values read are those of a memory, no operation raises, and the operations complete. -/
theorem C84_memory (c : MmCfg) (m : MemCfg) (hb : OneBus c m) (hm : SingleMem m) (hd : c.hasRdv = true) (rand : Nat → Nat)
    (init : Nat → Option Nat) (hinit : ∀ a v, init a = some v → v < 256 ^ (m.width / 8)) (o1 : MmOut) (o2 : MemOut)
    (ops : List MmOp) (hops : ∀ op ∈ ops, OpOk c op) (sM : Sim MmIn MmOut) (sS : Sim MemIn MemOut)
    (hM : sM.out = mmInit c o1) (hS : memInit m init o2 = .ok sS.out)
    (hwired : Wired sM (mmUse c ops sM).2 sS (memRespond m rand sS)) :
    let r := mmUse c ops sM
    (∃ l, r.1 ++ l = readsOf c.dataW init ops) ∧
    (∀ e s', r.2.2 ≠ .err e s') ∧
    (r.2.2.isOk = true → r.1 = readsOf c.dataW init ops) ∧
    (edgesFor m.latMax ops ≤ sM.rest.length → r.2.2.isOk = true) :=
  C84_general c m hb hm (.inl hd) rand init hinit o1 o2 ops hops sM sS hM hS hwired

/-- C84: there is such a simulation of every length. -/
theorem C84_exists (c : MmCfg) (m : MemCfg) (hb : OneBus c m) (hm : SingleMem m) (rand : Nat → Nat)
    (init : Nat → Option Nat) (hinit : ∀ a v, init a = some v → v < 256 ^ (m.width / 8)) (o1 : MmOut) (o2 out : MemOut)
    (hS : memInit m init o2 = .ok out) (ops : List MmOp) (N : Nat) :
    ∃ (sM : Sim MmIn MmOut) (sS : Sim MemIn MemOut), sM.out = mmInit c o1 ∧ sS.out = out ∧ sM.rest.length = N ∧
      Wired sM (mmUse c ops sM).2 sS (memRespond m rand sS) :=
  wired_exists c m rand ops o1 out hb hm init hinit o2 hS N

/-- C85: without readdatavalid the same holds of a memory of latency 0. -/
theorem C85_latency_zero_partial (c : MmCfg) (m : MemCfg) (hb : OneBus c m) (hm : SingleMem m) (hd : m.latMax = 0) (rand : Nat → Nat)
    (init : Nat → Option Nat) (hinit : ∀ a v, init a = some v → v < 256 ^ (m.width / 8)) (o1 : MmOut) (o2 : MemOut)
    (ops : List MmOp) (hops : ∀ op ∈ ops, OpOk c op) (sM : Sim MmIn MmOut) (sS : Sim MemIn MemOut)
    (hM : sM.out = mmInit c o1) (hS : memInit m init o2 = .ok sS.out)
    (hwired : Wired sM (mmUse c ops sM).2 sS (memRespond m rand sS)) :
    let r := mmUse c ops sM
    (∃ l, r.1 ++ l = readsOf c.dataW init ops) ∧
    (∀ e s', r.2.2 ≠ .err e s') ∧
    (r.2.2.isOk = true → r.1 = readsOf c.dataW init ops) ∧
    (edgesFor m.latMax ops ≤ sM.rest.length → r.2.2.isOk = true) :=
  C84_general c m hb hm (.inr hd) rand init hinit o1 o2 ops hops sM sS hM hS hwired

/-- C85, what happens without readdatavalid, for every latency: each read takes what the bus shows when it ends, two cycles after it was
called, and the word it asked for appears later by the latency of the memory. No operation raises, and all complete. -/
theorem C85_exact (c : MmCfg) (m : MemCfg) (hb : OneBus c m) (hm : SingleMem m) (hd : c.hasRdv = false) (rand : Nat → Nat)
    (init : Nat → Option Nat) (hinit : ∀ a v, init a = some v → v < 256 ^ (m.width / 8)) (o1 : MmOut) (o2 : MemOut)
    (ops : List MmOp) (hops : ∀ op ∈ ops, OpOk c op) (sM : Sim MmIn MmOut) (sS : Sim MemIn MemOut)
    (hM : sM.out = mmInit c o1) (hS : memInit m init o2 = .ok sS.out)
    (hwired : Wired sM (mmUse c ops sM).2 sS (memRespond m rand sS)) :
    let r := mmUse c ops sM
    let late := lateReads c.dataW (fun k => memLat m rand (sS.out.drawn + k)) sS.out.readdata 0 [] init ops
    (∃ l, r.1 ++ l = late) ∧
    (∀ e s', r.2.2 ≠ .err e s') ∧
    (r.2.2.isOk = true → r.1 = late) ∧
    (edgesFor 0 ops ≤ sM.rest.length → r.2.2.isOk = true) := by
  obtain ⟨hj, hq, hfresh, hX⟩ := joint_of_wired c m hb hm rand init hinit o1 o2 ops sM sS hM hS hwired
  have hp : Pipe m rand sS.out.drawn sS.out.readdata [] 0 (memAt m rand sS.out (memInputs c ops sM sS) 0) := by
    refine ⟨List.Pairwise.nil, rfl, ?_, ?_, rfl⟩
    · intro j v
      show (∃ r, sS.out.responses[j]? = some (some r) ∧ _) ↔ _
      rw [hfresh.resp]
      simp
    · show 0 + sS.out.responses.length = _
      rw [hfresh.resp]
      rfl
  have := useP_main hj hd ops sM 0 [] init hops ⟨rfl, ⟨hq, by rw [hM]; rfl⟩, hp, hfresh.mem⟩ hX
  rw [Nat.zero_add, ← hb.width] at this
  exact this

/-- the words asked for before have all appeared when the next read ends -/
theorem lateReads_previous (w : Nat) (lat : Nat → Nat) (h1 : ∀ k, 1 ≤ lat k) (h2 : ∀ k, lat k ≤ 2) (ops : List MmOp) :
    ∀ (first : LogicArray) (now : Nat) (past : List (Nat × LogicArray)) (mem : Nat → Option Nat), (past ≠ [] → lastCycle past ≤ now + 2) →
      past.Pairwise (fun a b => a.1 < b.1) →
      lateReads w lat first now past mem ops = (showing first past (now + 2) :: readsOf w mem ops).dropLast := by
  induction ops with
  | nil => intro first now past mem _ _; rfl
  | cons op ops ih =>
    intro first now past mem hp hs
    have hall : ∀ t, now + 2 ≤ t → showing first past t = showing first past (now + 2) := by
      intro t ht
      unfold showing
      congr 3
      apply List.filter_congr
      intro e he
      have := le_lastCycle past hs e he
      have := hp (by intro h; rw [h] at he; cases he)
      simp; omega
    cases op with
    | write a v =>
      simp only [lateReads, readsOf]
      rw [ih _ _ _ _ (fun h => by have := hp h; omega) hs, hall _ (by omega)]
    | pause k =>
      simp only [lateReads, readsOf]
      rw [ih _ _ _ _ (fun h => by have := hp h; omega) hs, hall _ (by omega)]
    | read a =>
      have hw : readsOf w mem (.read a :: ops) = memWordBits w (mem a) :: readsOf w mem ops := by
        simp only [readsOf]
        cases mem a <;> rfl
      have hl1 := h1 past.length
      have hl2 := h2 past.length
      have hle := le_lastCycle past hs
      have hlast : lastCycle past ≤ now + 2 := by
        rcases past with _ | ⟨e, r⟩
        · simp [lastCycle]
        · exact hp (by simp)
      rw [hw]
      simp only [lateReads, List.dropLast_cons_cons]
      have e1 : showing first (past ++ [(max (now + 2 + lat past.length) (lastCycle past + 1), memWordBits w (mem a))]) (now + 2) =
          showing first past (now + 2) := by
        unfold showing
        rw [List.filter_append, List.filter_cons_of_neg (by simp; omega)]
        simp
      have e2 : showing first (past ++ [(max (now + 2 + lat past.length) (lastCycle past + 1), memWordBits w (mem a))]) (now + 2 + 2) =
          memWordBits w (mem a) := by
        unfold showing
        rw [List.filter_append, List.filter_cons_of_pos (by simp; omega)]
        simp
      rw [e1, ih _ _ _ _ (fun _ => by rw [lastCycle_append]; simp only; omega) (by
        refine List.pairwise_append.2 ⟨hs, List.pairwise_singleton _ _, ?_⟩
        intro x hx y hy
        rw [List.mem_singleton] at hy
        have := hle x hx
        rw [hy]
        simp only
        omega), e2]

/-- C85, with the default latency (or 2, or anything from 1 to 2): each read returns the word asked for by the read before it, and the first
one what was on the bus. -/
theorem C85_previous (c : MmCfg) (m : MemCfg) (hb : OneBus c m) (hm : SingleMem m) (hd : c.hasRdv = false) (h1 : 1 ≤ m.latMin) (h2 : m.latMax ≤ 2)
    (rand : Nat → Nat) (init : Nat → Option Nat) (hinit : ∀ a v, init a = some v → v < 256 ^ (m.width / 8)) (o1 : MmOut) (o2 : MemOut)
    (ops : List MmOp) (hops : ∀ op ∈ ops, OpOk c op) (sM : Sim MmIn MmOut) (sS : Sim MemIn MemOut)
    (hM : sM.out = mmInit c o1) (hS : memInit m init o2 = .ok sS.out)
    (hwired : Wired sM (mmUse c ops sM).2 sS (memRespond m rand sS)) (hok : (mmUse c ops sM).2.2.isOk = true) :
    (mmUse c ops sM).1 = (sS.out.readdata :: readsOf c.dataW init ops).dropLast := by
  have hl := hm.lat
  rw [(C85_exact c m hb hm hd rand init hinit o1 o2 ops hops sM sS hM hS hwired).2.2.1 hok,
    lateReads_previous _ _ (fun k => by unfold memLat; omega) (fun k => by
      have := Nat.mod_lt (rand (sS.out.drawn + k)) (show 0 < m.latMax - m.latMin + 1 by omega)
      unfold memLat; omega) ops _ 0 [] init (fun h => absurd rfl h) List.Pairwise.nil]
  rfl

/-! ### A simulation -/

/-- a 16-bit bus with readdatavalid and byte enables, and a memory of latency 1 to 3 -/
def exMmBus : MmCfg := { addrW := 4, dataW := 16, beW := some 2 }
def exMemBus : MemCfg := { width := 16, beW := some 2, latMin := 1, latMax := 3 }
/-- the same without readdatavalid; the memory has the default latency -/
def exMmFix : MmCfg := { addrW := 4, dataW := 16, hasRdv := false }
def exMemFix (lat : Nat) : MemCfg := { width := 16, hasRdv := false, latMin := lat, latMax := lat }

def exMmPins : MmOut := ⟨[], [], [], .x, .x, .x, false⟩
def exMemContents : Nat → Option Nat := fun a => if a = 3 then some 0x1234 else none
def exMemStart : MemOut := ⟨List.replicate 16 .x, .zero, .zero, exMemContents, [], 0⟩
def exMmOps : List MmOp := [.write 5 0xbeef, .read 5, .pause 1, .read 3, .write 3 7, .read 3, .read 9]

theorem exMemContents_fits (a v : Nat) (h : exMemContents a = some v) : v < 256 ^ (16 / 8) := by
  unfold exMemContents at h
  split at h
  · cases h; decide
  · cases h

example : OneBus exMmBus exMemBus ∧ SingleMem exMemBus ∧ exMmBus.hasRdv = true ∧ (∀ op ∈ exMmOps, OpOk exMmBus op) ∧
    memInit exMemBus exMemContents exMemStart = .ok exMemStart ∧
    Wired (loopSimM exMmBus exMemBus id exMmOps exMmPins exMemStart 30)
      (mmUse exMmBus exMmOps (loopSimM exMmBus exMemBus id exMmOps exMmPins exMemStart 30)).2
      (loopSimS exMmBus exMemBus id exMmOps exMmPins exMemStart 30)
      (memRespond exMemBus id (loopSimS exMmBus exMemBus id exMmOps exMmPins exMemStart 30)) ∧
    edgesFor exMemBus.latMax exMmOps = 25 := by
  have hb : OneBus exMmBus exMemBus := ⟨rfl, rfl, rfl, rfl, rfl, rfl, rfl, rfl, rfl, fun w h => by cases h; rfl⟩
  have hm : SingleMem exMemBus := ⟨rfl, .inl rfl, fun _ => rfl, fun _ => rfl, by decide⟩
  refine ⟨hb, hm, rfl, ?_, rfl, loop_wired _ _ _ _ _ _ hb hm exMemContents exMemContents_fits exMemStart rfl 30, rfl⟩
  intro op hop
  simp only [exMmOps, List.mem_cons, List.not_mem_nil, or_false] at hop
  rcases hop with rfl | rfl | rfl | rfl | rfl | rfl | rfl <;> simp [OpOk, exMmBus]

/-- what the operations read in it -/
example : (mmUse exMmBus exMmOps (loopSimM exMmBus exMemBus id exMmOps exMmPins exMemStart 30)).1 =
    [natToBits 16 0xbeef, natToBits 16 0x1234, natToBits 16 7, List.replicate 16 .x] := by decide +kernel

/-- C85 is violated: with the default latency of 1 and no readdatavalid, a read after a write of the same address returns something else. -/
theorem C85_violated : ∃ (c : MmCfg) (m : MemCfg) (rand : Nat → Nat) (init : Nat → Option Nat) (o1 : MmOut) (o2 : MemOut) (ops : List MmOp)
    (sM : Sim MmIn MmOut) (sS : Sim MemIn MemOut),
    OneBus c m ∧ SingleMem m ∧ c.hasRdv = false ∧ m.latMin = 1 ∧ m.latMax = 1 ∧ (∀ a v, init a = some v → v < 256 ^ (m.width / 8)) ∧
    (∀ op ∈ ops, OpOk c op) ∧ sM.out = mmInit c o1 ∧ memInit m init o2 = .ok sS.out ∧
    Wired sM (mmUse c ops sM).2 sS (memRespond m rand sS) ∧ (mmUse c ops sM).2.2.isOk = true ∧
    readsOf c.dataW init ops = [natToBits 16 0xbeef, natToBits 16 0x1234] ∧
    (mmUse c ops sM).1 = [List.replicate 16 .x, natToBits 16 0xbeef] := by
  have hb : OneBus exMmFix (exMemFix 1) := ⟨rfl, rfl, rfl, rfl, rfl, rfl, rfl, rfl, rfl, fun w h => by cases h⟩
  have hm : SingleMem (exMemFix 1) := ⟨rfl, .inl rfl, fun _ => rfl, fun _ => rfl, by decide⟩
  refine ⟨exMmFix, exMemFix 1, id, exMemContents, exMmPins, exMemStart, [.write 5 0xbeef, .read 5, .read 3],
    loopSimM exMmFix (exMemFix 1) id [.write 5 0xbeef, .read 5, .read 3] exMmPins exMemStart 10,
    loopSimS exMmFix (exMemFix 1) id [.write 5 0xbeef, .read 5, .read 3] exMmPins exMemStart 10,
    hb, hm, rfl, rfl, rfl, exMemContents_fits, ?_, rfl, rfl,
    loop_wired _ _ _ _ _ _ hb hm exMemContents exMemContents_fits exMemStart rfl 10, ?_, ?_, ?_⟩
  · intro op hop
    simp only [List.mem_cons, List.not_mem_nil, or_false] at hop
    rcases hop with rfl | rfl | rfl <;> simp [OpOk, exMmFix]
  · decide +kernel
  · decide +kernel
  · decide +kernel

/-- the hypotheses of `C85_latency_zero_partial` are met -/
example : OneBus exMmFix (exMemFix 0) ∧ SingleMem (exMemFix 0) ∧ (∀ op ∈ exMmOps, OpOk exMmFix op) ∧
    Wired (loopSimM exMmFix (exMemFix 0) id exMmOps exMmPins exMemStart 30)
      (mmUse exMmFix exMmOps (loopSimM exMmFix (exMemFix 0) id exMmOps exMmPins exMemStart 30)).2
      (loopSimS exMmFix (exMemFix 0) id exMmOps exMmPins exMemStart 30)
      (memRespond (exMemFix 0) id (loopSimS exMmFix (exMemFix 0) id exMmOps exMmPins exMemStart 30)) := by
  have hb : OneBus exMmFix (exMemFix 0) := ⟨rfl, rfl, rfl, rfl, rfl, rfl, rfl, rfl, rfl, fun w h => by cases h⟩
  have hm : SingleMem (exMemFix 0) := ⟨rfl, .inl rfl, fun _ => rfl, fun _ => rfl, by decide⟩
  refine ⟨hb, hm, ?_, loop_wired _ _ _ _ _ _ hb hm exMemContents exMemContents_fits exMemStart rfl 30⟩
  intro op hop
  simp only [exMmOps, List.mem_cons, List.not_mem_nil, or_false] at hop
  rcases hop with rfl | rfl | rfl | rfl | rfl | rfl | rfl <;> simp [OpOk, exMmFix]

/-- the same operations with latency 0 -/
example : (mmUse exMmFix exMmOps (loopSimM exMmFix (exMemFix 0) id exMmOps exMmPins exMemStart 30)).1 =
    [natToBits 16 0xbeef, natToBits 16 0x1234, natToBits 16 7, List.replicate 16 .x] := by decide +kernel

/-- the same with latencies from 0 to 4 (the numbers drawn are 3, 4, 0, 1): the hypotheses of `C85_exact` are met -/
example : let rand := fun k => k + 3
    let m : MemCfg := { exMemFix 0 with latMax := 4 }
    let ops : List MmOp := [.write 5 0xbeef, .read 5, .read 3, .pause 1, .read 5, .read 9]
    OneBus exMmFix m ∧ SingleMem m ∧ (∀ op ∈ ops, OpOk exMmFix op) ∧
    Wired (loopSimM exMmFix m rand ops exMmPins exMemStart 30) (mmUse exMmFix ops (loopSimM exMmFix m rand ops exMmPins exMemStart 30)).2
      (loopSimS exMmFix m rand ops exMmPins exMemStart 30) (memRespond m rand (loopSimS exMmFix m rand ops exMmPins exMemStart 30)) ∧
    readsOf 16 exMemContents ops = [natToBits 16 0xbeef, natToBits 16 0x1234, natToBits 16 0xbeef, List.replicate 16 .x] ∧
    (mmUse exMmFix ops (loopSimM exMmFix m rand ops exMmPins exMemStart 30)).1 =
      [List.replicate 16 .x, List.replicate 16 .x, natToBits 16 0xbeef, natToBits 16 0xbeef] := by
  have hb : OneBus exMmFix { exMemFix 0 with latMax := 4 } := ⟨rfl, rfl, rfl, rfl, rfl, rfl, rfl, rfl, rfl, fun w h => by cases h⟩
  have hm : SingleMem { exMemFix 0 with latMax := 4 } := ⟨rfl, .inl rfl, fun _ => rfl, fun _ => rfl, by decide⟩
  refine ⟨hb, hm, ?_, loop_wired _ _ _ _ _ _ hb hm exMemContents exMemContents_fits exMemStart rfl 30, by decide +kernel, by decide +kernel⟩
  intro op hop
  simp only [List.mem_cons, List.not_mem_nil, or_false] at hop
  rcases hop with rfl | rfl | rfl | rfl | rfl | rfl <;> simp [OpOk, exMmFix]

end CocotbBus
