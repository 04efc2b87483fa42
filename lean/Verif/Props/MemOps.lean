import Verif.Proof.MemOps
import Verif.Props.MemServe

/-! # Property C114: sequences of write and read bursts of `AvalonMemory` -/

namespace CocotbBus
open Spec Coro

theorem wordsShown_none (l : List (LogicArray × Logic × Logic)) (h : ∀ p ∈ l, p.2.1 = .zero) : wordsShown l = [] := by
  unfold wordsShown
  rw [List.filter_eq_nil_iff.2 (by intro p hp; simp [h p hp]), List.map_nil]

theorem acceptedBeats_append (a b : List (MemOut × MemIn)) : acceptedBeats (a ++ b) = acceptedBeats a ++ acceptedBeats b := by simp [acceptedBeats]

theorem acceptedBeats_none (l : List (MemOut × MemIn)) (h : ∀ q ∈ l, q.2.write ≠ .one) : acceptedBeats l = [] := by
  unfold acceptedBeats
  rw [List.filter_eq_nil_iff.2 (by intro q hq; simp [h q hq]), List.map_nil]

theorem acceptedBeats_all (l : List (MemOut × MemIn)) (h : ∀ q ∈ l, q.2.write = .one ∧ q.1.waitrequest = .zero) :
    acceptedBeats l = (l.map Prod.snd).map (fun i => bitsToNat i.writedata) := by
  unfold acceptedBeats
  rw [List.filter_eq_self.2 (by intro q hq; simp [h q hq])]
  simp

/-- one iteration, then the rest -/
theorem respond_step {c : MemCfg} {rand : Nat → Nat} {s s' : Sim MemIn MemOut} {t : List (MemOut × MemIn)} {q : MemOut × MemIn} (h : memCycle c rand s = (q :: t, .ok () s')) :
    (memShown (memRespond c rand s)).tail = t.map (fun q => memPins q.1) ++ memShown (memRespond c rand s') ∧
    (cyclesOf (memRespond c rand s)).tail = t ++ cyclesOf (memRespond c rand s') ∧
    (memRespond c rand s).2 = (memRespond c rand s').2 := by
  rw [memRespond_unfold, bind_run, h, andThen_ok]
  simp [memShown, cyclesOf]

theorem shown_cons (c : MemCfg) (rand : Nat → Nat) (s : Sim MemIn MemOut) :
    memShown (memRespond c rand s) = memPins s.out :: (memShown (memRespond c rand s)).tail := by
  rw [memRespond_unfold, memCycle]
  simp only [bind_assoc_run]
  cases hr : s.rest with
  | nil => rw [shown_edge_nil _ _ hr]; rfl
  | cons i r => rw [shown_edge_cons _ _ i r hr]; rfl

theorem cycles_cons (c : MemCfg) (rand : Nat → Nat) (s : Sim MemIn MemOut) :
    cyclesOf (memRespond c rand s) = (s.out, s.cur) :: (cyclesOf (memRespond c rand s)).tail := by
  rw [memRespond_unfold, memCycle]
  simp only [bind_assoc_run]
  cases hr : s.rest with
  | nil => rw [cyclesOf_nil _ _ hr]; rfl
  | cons i r => rw [cyclesOf_cons _ _ i r hr]; rfl

theorem burstReadPins_last (c : MemCfg) (mem : Nat → Option Nat) (rd : LogicArray) (a n : Nat) (p : LogicArray × Logic × Logic) :
    ((p :: burstReadPins c mem rd a n).getLast (by simp)).2.2 = .zero := by
  have : ∀ l : List (LogicArray × Logic × Logic), (∀ q ∈ l, q.2.2 = .zero) → ∀ q x (h : l ≠ []), ((p :: q :: x :: l).getLast (by simp)).2.2 = .zero := by
    intro l hl q x hne
    rw [List.getLast_cons (by simp), List.getLast_cons (by simp), List.getLast_cons hne]
    exact hl _ (List.getLast_mem hne)
  unfold burstReadPins
  rw [List.append_assoc]
  refine this (List.replicate (c.readLatency + 1) (rd, .zero, .zero) ++
    (List.range n).map (fun k => (burstWord c mem (a + k * (c.width / 8)), .one, .zero))) ?_ _ _ (by simp [List.replicate_succ])
  intro q hq
  rcases List.mem_append.1 hq with h | h
  · rw [List.eq_of_mem_replicate h]
  · obtain ⟨k, -, rfl⟩ := List.mem_map.1 h
    rfl

theorem quiet_step {c : MemCfg} (hc : BurstMem c) (rand : Nat → Nat) (s : Sim MemIn MemOut) (hresp : s.out.responses = [])
    (i : MemIn) (r : List MemIn) (hr : s.rest = i :: r) (hq : MemQuiet i) :
    ∃ s', memCycle c rand s = ([(s.out, s.cur)], .ok () s') ∧ s'.out = { s.out with responses := [], readdatavalid := .zero } ∧ s'.cur = i ∧ s'.rest = r :=
  ⟨_, memCycle_idle hc rand s hresp i r hr hq.1 hq.2, rfl, rfl, rfl⟩

theorem bursts_run {c : MemCfg} (hc : BurstMem c) (hwb : c.writeBurstWaitReq = false) (rand : Nat → Nat) : ∀ (n : Nat) (s : Sim MemIn MemOut) (idle : List MemIn)
    (blocks : List (BurstOp × List MemIn)), s.rest.length = n → s.out.responses = [] → s.out.waitrequest = .zero → WholeWords c s.out.mem →
    s.rest = idle ++ blocks.flatMap Prod.snd → (∀ i ∈ idle, MemQuiet i) → (∀ b ∈ blocks, Performs c b.1 b.2 ∧ b.1.Aligned c) →
    wordsShown (memShown (memRespond c rand s)).tail = wordsRead c s.out.mem (blocks.map Prod.fst) ∧
    acceptedBeats (cyclesOf (memRespond c rand s)).tail = wordsWritten (blocks.map Prod.fst) ∧
    ∃ s', (memRespond c rand s).2 = .blocked s' ∧ s'.out.mem = memAfter c s.out.mem (blocks.map Prod.fst) := by
  intro n
  induction n using Nat.strongRecOn with
  | ind n ih =>
  intro s idle blocks hn hresp hwait hwhole hrest hidle hblocks
  cases idle with
  | cons i idle =>
    rw [List.cons_append] at hrest
    obtain ⟨s', h1, h2, h3, h4⟩ := quiet_step hc rand s hresp i _ hrest (hidle i (by simp))
    obtain ⟨a1, a2, a3⟩ := respond_step h1
    obtain ⟨b1, b2, b3⟩ := ih s'.rest.length (by rw [h4, ← hn, hrest]; simp) s' idle blocks rfl (by rw [h2]) (by rw [h2]; exact hwait) (by rw [h2]; exact hwhole) h4
      (fun j hj => hidle j (by simp [hj])) hblocks
    rw [h2] at b1 b3
    rw [a1, a2, a3, shown_cons, cycles_cons]
    refine ⟨?_, ?_, b3⟩
    · rw [List.map_nil, List.nil_append, ← b1, ← List.singleton_append, wordsShown_append, wordsShown_none _ (by simp [h2, memPins]), List.nil_append]
    · rw [List.nil_append, ← b2, ← List.singleton_append, acceptedBeats_append, acceptedBeats_none _ (by simpa [h3] using (hidle i (by simp)).2), List.nil_append]
  | nil =>
    rw [List.nil_append] at hrest
    cases blocks with
    | nil =>
      have h0 : s.rest = [] := by simpa using hrest
      rw [memRespond_unfold, memCycle]
      simp only [bind_assoc_run]
      rw [shown_edge_nil _ _ h0, cyclesOf_nil _ _ h0, bind_awaitEdge_nil _ _ h0]
      exact ⟨rfl, rfl, s, rfl, rfl⟩
    | cons b blocks =>
      obtain ⟨op, cycles⟩ := b
      rw [List.flatMap_cons] at hrest
      have hb := hblocks (op, cycles) (by simp)
      have hbs : ∀ b ∈ blocks, Performs c b.1 b.2 ∧ b.1.Aligned c := fun b hb => hblocks b (by simp [hb])
      simp only at hrest hb
      cases op with
      | write addr words =>
        obtain ⟨⟨first, beats, pause, rfl, hrd, ha, haddr, hbc, hcount, hw, hwords, hne, hpause⟩, hal⟩ := hb
        cases pause with
        | nil => exact absurd rfl hne
        | cons g pause =>
        have hr : s.rest = first :: beats ++ g :: (pause ++ blocks.flatMap Prod.snd) := by rw [hrest]; simp
        obtain ⟨t, p, h1, h2, h3⟩ := memCycle_write_plain hc hwb rand s hresp first beats g _ hr hrd ha hbc (by rw [hcount, ← hwords]; simp) hw
        obtain ⟨a1, a2, a3⟩ := respond_step h1
        rw [hwords, haddr] at h1 a1 a2 a3
        have hlen : (pause ++ blocks.flatMap Prod.snd).length < n := by rw [← hn, hr]; simp; omega
        obtain ⟨b1, b2, b3⟩ := ih _ hlen ⟨.edge, { s.out with responses := [], readdatavalid := .zero, mem := storeWords c s.out.mem addr words }, p, g, pause ++ blocks.flatMap Prod.snd⟩
          pause blocks rfl rfl hwait (wholeWords_store c hc _ hwhole addr hal words) rfl (fun j hj => hpause j (by simp [hj])) hbs
        have hacc : acceptedBeats t = words := by
          rw [acceptedBeats_all, h3, hwords]
          intro q hq
          have m1 : q.2 ∈ first :: beats := by rw [← h3]; exact List.mem_map_of_mem hq
          have m2 : memPins q.1 ∈ List.replicate (beats.length + 1) (s.out.readdata, .zero, s.out.waitrequest) := by
            rw [← h2]; exact List.mem_map_of_mem (f := fun q => memPins q.1) hq
          have m3 := congrArg (fun p => p.2.2) (List.eq_of_mem_replicate m2)
          exact ⟨(hw _ m1).1, by rw [← hwait]; exact m3⟩
        rw [a1, a2, a3, shown_cons, cycles_cons]
        refine ⟨?_, ?_, b3⟩
        · rw [wordsShown_append, wordsShown_none _ (by rw [h2]; intro q hq; rw [List.eq_of_mem_replicate hq]), List.nil_append,
            ← List.singleton_append, wordsShown_append, wordsShown_none _ (by simp [memPins]), List.nil_append, b1]
          rfl
        · rw [acceptedBeats_append, hacc, ← List.singleton_append, acceptedBeats_append, acceptedBeats_none _ (by simpa using (hpause g (by simp)).2), List.nil_append, b2]
          rfl
      | read addr count =>
        obtain ⟨⟨first, later, rfl, hrd, ha, haddr, hbc, hcount, hnw, hlong, hnr⟩, hal⟩ := hb
        have hr : s.rest = first :: (later ++ blocks.flatMap Prod.snd) := by rw [hrest]; simp
        have hal' : addr % (c.width / 8) = 0 := hal
        have hnw' : ∀ j, s.rest[c.readLatency + 1 + bitsToNat first.burstcount]? = some j → j.write ≠ .one := by
          intro j hj
          rw [hr, ← List.cons_append, List.getElem?_append_left (by unfold burstCycles at hlong; omega)] at hj
          exact hnw j (List.mem_of_getElem? hj)
        have hthere : ∀ k < bitsToNat first.burstcount, WordThere c s.out.mem (bitsToNat first.address + k * (c.width / 8)) := by
          intro k _
          apply hwhole
          rw [haddr, Nat.add_mul_mod_self_right, hal']
        have h := memCycle_read_shows hc rand s hresp first _ hr hrd hnw' ha hbc (by rw [haddr]; exact hal') hthere
        have hok := (C47_burst_read c hc rand s hresp first _ hr hrd hnw' ha hbc (by rw [haddr]; exact hal') hthere).2.2.2
          (by rw [hr, ← List.cons_append, List.length_append]; unfold burstCycles at hlong; omega)
        have hgood := (memCycle_good c rand s).1
        have hpl := burstReadPins_length c s.out.mem s.out.readdata (bitsToNat first.address) (bitsToNat first.burstcount)
        cases hx : memCycle c rand s with
        | mk t e =>
        rw [hx] at h hok hgood
        cases e with
        | err e s' => cases hok
        | blocked s' => cases hok
        | ok a s' =>
        obtain ⟨k1, k2, k3, -, -, k6⟩ := h.ok a s' rfl
        cases t with
        | nil => exact absurd (congrArg List.length k1) (by simp [memShown, hpl])
        | cons q t =>
        have hgl : t.map Prod.snd ++ s'.cur :: s'.rest = s.rest := by
          have : q.2 :: (t.map Prod.snd ++ s'.cur :: s'.rest) = s.cur :: s.rest := by simpa [End.sim] using hgood.symm
          exact (List.cons.inj this).2
        have kp : t.map (fun q => memPins q.1) ++ [memPins s'.out] = burstReadPins c s.out.mem s.out.readdata (bitsToNat first.address) (bitsToNat first.burstcount) := by
          have : memPins q.1 :: (t.map (fun q => memPins q.1) ++ [memPins s'.out]) = memPins s.out :: burstReadPins c s.out.mem s.out.readdata (bitsToNat first.address) (bitsToNat first.burstcount) := by
            simpa [memShown, End.sim] using k1
          exact (List.cons.inj this).2
        have ht : t.length + 1 = burstCycles c first := by
          have := congrArg List.length kp
          rw [hpl] at this
          simpa [burstCycles] using this
        have htake : t.map Prod.snd ++ [s'.cur] = (first :: later).take (burstCycles c first) := by
          have e := congrArg (List.take (burstCycles c first)) (hgl.trans hr)
          rw [← List.cons_append, List.take_append_of_le_length hlong, ← ht] at e
          rw [← ht, ← e, show t.map Prod.snd ++ s'.cur :: s'.rest = (t.map Prod.snd ++ [s'.cur]) ++ s'.rest by simp, List.take_left' (by simp)]
        have hdrop : s'.rest = (first :: later).drop (burstCycles c first) ++ blocks.flatMap Prod.snd := by
          have e := congrArg (List.drop (burstCycles c first)) (hgl.trans hr)
          rw [← List.cons_append, List.drop_append_of_le_length hlong, ← ht] at e
          rw [← ht, ← e, show t.map Prod.snd ++ s'.cur :: s'.rest = (t.map Prod.snd ++ [s'.cur]) ++ s'.rest by simp, List.drop_left' (by simp)]
        have hwait' : s'.out.waitrequest = .zero := by
          have e := burstReadPins_last c s.out.mem s.out.readdata (bitsToNat first.address) (bitsToNat first.burstcount) (memPins s.out)
          simp only [← kp] at e
          rw [List.getLast_cons (by simp), List.getLast_append_of_ne_nil (by simp) (by simp), List.getLast_singleton] at e
          exact e
        obtain ⟨a1, a2, a3⟩ := respond_step hx
        obtain ⟨b1, b2, b3⟩ := ih s'.rest.length (by rw [← hn, ← hgl]; simp; omega) s' _ blocks rfl k2 hwait' (by rw [k3]; exact hwhole) hdrop
          (fun j hj => ⟨hnr j hj, hnw j (List.mem_of_mem_drop hj)⟩) hbs
        rw [k3] at b1 b3
        rw [a1, a2, a3, shown_cons, cycles_cons]
        refine ⟨?_, ?_, b3⟩
        · rw [show ∀ (x : LogicArray × Logic × Logic) l, t.map (fun q => memPins q.1) ++ x :: l = (t.map (fun q => memPins q.1) ++ [x]) ++ l by simp, kp,
            wordsShown_append, wordsShown_burst, b1, List.map_cons, wordsRead, wordsAsked, haddr, hcount]
        · rw [show ∀ (x : MemOut × MemIn) l, t ++ x :: l = (t ++ [x]) ++ l by simp, acceptedBeats_append, b2, acceptedBeats_none, List.nil_append]
          · rfl
          · intro x hx'
            have hm : x.2 ∈ t.map Prod.snd ++ [s'.cur] := by
              rw [show t.map Prod.snd ++ [s'.cur] = (t ++ [(s'.out, s'.cur)]).map Prod.snd by simp]
              exact List.mem_map_of_mem hx'
            rw [htake] at hm
            exact hnw _ (List.mem_of_mem_take hm)

/-- C114, the part that holds: a memory with bursts, whose random waits are switched off, is given any sequence of write and read bursts, the writes
without gaps and followed by a cycle without request, the reads not disturbed by another request. Then all beats of the writes are accepted at once, the
words returned are in order those that the writes before have left in memory, nothing is raised, and in the end the memory contains what was written. -/
theorem C114_bursts_partial (c : MemCfg) (hc : BurstMem c) (hwb : c.writeBurstWaitReq = false) (rand : Nat → Nat) (s : Sim MemIn MemOut)
    (hresp : s.out.responses = []) (hwait : s.out.waitrequest = .zero) (hmem : WholeWords c s.out.mem)
    (idle : List MemIn) (hidle : ∀ i ∈ idle, MemQuiet i)
    (bursts : List (BurstOp × List MemIn)) (hb : ∀ b ∈ bursts, Performs c b.1 b.2 ∧ b.1.Aligned c)
    (hrest : s.rest = idle ++ bursts.flatMap Prod.snd) :
    let r := memRespond c rand s
    wordsShown (memShown r).tail = wordsRead c s.out.mem (bursts.map Prod.fst) ∧
    acceptedBeats (cyclesOf r).tail = wordsWritten (bursts.map Prod.fst) ∧
    ∃ s', r.2 = .blocked s' ∧ s'.out.mem = memAfter c s.out.mem (bursts.map Prod.fst) :=
  bursts_run hc hwb rand _ s idle bursts rfl hresp hwait hmem hrest hidle hb

/-! A 16-bit memory: two words written to address 2, both read, the second one overwritten and both read again. -/

def exOpsCfg : MemCfg := { exBurstCfg with writeBurstWaitReq := false }
def exWrite (a n d : Nat) : MemIn :=
  { write := .one, address := natToBits 8 a, burstcount := natToBits 4 n, byteenable := natToBits 2 3, writedata := natToBits 16 d }
def exReadN (a n : Nat) : MemIn := { read := .one, address := natToBits 8 a, burstcount := natToBits 4 n, byteenable := natToBits 2 3 }
def exOpsSim (l : List MemIn) : Sim MemIn MemOut := ⟨.mid, ⟨[], .zero, .zero, fun _ => none, [], 0⟩, {}, {}, l⟩
def exBursts : List (BurstOp × List MemIn) :=
  [(.write 2 [0x2211, 0x4433], [exWrite 2 2 0x2211, exWrite 0 0 0x4433, {}]),
   (.read 2 2, [exReadN 2 2, exReadN 2 2, {}, {}, {}, {}]),
   (.write 4 [0x6655], [exWrite 4 1 0x6655, {}, {}]),
   (.read 2 2, [exReadN 2 2, exReadN 2 2, {}, {}, {}, {}, {}])]

theorem exBursts_performs : ∀ b ∈ exBursts, Performs exOpsCfg b.1 b.2 ∧ b.1.Aligned exOpsCfg := by
  intro b hb
  simp only [exBursts, List.mem_cons, List.not_mem_nil, or_false] at hb
  rcases hb with rfl | rfl | rfl | rfl
  · exact ⟨⟨exWrite 2 2 0x2211, [exWrite 0 0 0x4433], [{}], rfl, by decide, by decide, by decide, by decide, by decide, by decide, by decide, by decide,
      by intro i hi; simp only [List.mem_singleton] at hi; subst hi; exact ⟨by decide, by decide⟩⟩, rfl⟩
  · exact ⟨⟨exReadN 2 2, _, rfl, by decide, by decide, by decide, by decide, by decide, by decide, by decide, by decide⟩, rfl⟩
  · exact ⟨⟨exWrite 4 1 0x6655, [], [{}, {}], rfl, by decide, by decide, by decide, by decide, by decide, by decide, by decide, by decide,
      by intro i hi; simp only [List.mem_cons, List.not_mem_nil, or_false] at hi; rcases hi with rfl | rfl <;> exact ⟨by decide, by decide⟩⟩, rfl⟩
  · exact ⟨⟨exReadN 2 2, _, rfl, by decide, by decide, by decide, by decide, by decide, by decide, by decide, by decide⟩, rfl⟩

example :
    let r := memRespond exOpsCfg (fun _ => 0) (exOpsSim ([({} : MemIn)] ++ exBursts.flatMap Prod.snd))
    wordsShown (memShown r).tail = [natToBits 16 0x2211, natToBits 16 0x4433, natToBits 16 0x2211, natToBits 16 0x6655] ∧
      acceptedBeats (cyclesOf r).tail = [0x2211, 0x4433, 0x6655] := by
  intro r
  obtain ⟨h1, h2, -⟩ := C114_bursts_partial exOpsCfg ⟨rfl, by decide, rfl, rfl, rfl, ⟨rfl, rfl⟩, ⟨rfl, rfl⟩⟩ rfl (fun _ => 0)
    (exOpsSim ([({} : MemIn)] ++ exBursts.flatMap Prod.snd)) rfl rfl (fun a _ => Or.inl rfl) [{}]
    (by intro i hi; simp only [List.mem_singleton] at hi; subst hi; exact ⟨by decide, by decide⟩) exBursts exBursts_performs rfl
  rw [show r = _ from rfl, h1, h2]
  decide +kernel

/-- C114 is false of the code: a beat that follows a write burst at once is accepted (waitrequest is 0) and ignored. -/
theorem C114_violated_next :
    let r := memRespond exOpsCfg (fun _ => 0) (exOpsSim [exWrite 2 1 0x2211, exWrite 4 1 0x4433, {}, {}])
    acceptedBeats (cyclesOf r) = [0x2211, 0x4433] ∧ (List.range 8).map r.2.sim.out.mem = [none, none, some 0x11, some 0x22, none, none, none, none] := by
  decide +kernel

/-- C114 is false of the code: if the master makes a gap in a write burst, what is on writedata in the gap is stored instead of the next beat, which is
accepted and ignored. -/
theorem C114_violated_gap :
    let r := memRespond exOpsCfg (fun _ => 0) (exOpsSim [exWrite 2 2 0x2211, { exWrite 2 2 0x6655 with write := .zero }, exWrite 2 2 0x4433, {}, {}])
    acceptedBeats (cyclesOf r) = [0x2211, 0x4433] ∧ (List.range 8).map r.2.sim.out.mem = [none, none, some 0x11, some 0x22, some 0x55, some 0x66, none, none] := by
  decide +kernel

end CocotbBus
