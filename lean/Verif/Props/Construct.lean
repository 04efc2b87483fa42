import Verif.Model.Construct
import Verif.Spec.Stream
import Verif.Spec.AvalonMM
import Verif.Spec.AvalonPkts
import Verif.Model.Opb
import Verif.Model.AvalonMemory
import Verif.Proof.Bus
import Verif.Proof.Compat
import Verif.Model.Session
import Verif.Proof.MmUse

/-! # C91: construction leaves a bus idle -/

namespace CocotbBus
open Spec Coro

/-- `name` is bound to the signal `h`. -/
def Bus.binds (b : Bus) (name : String) (h : Handle) : Prop := dictGet b.signals name = some (some h)

/-- Different attributes are different signals. -/
def Bus.Separate (b : Bus) : Prop := ∀ n n' h, b.binds n h → b.binds n' h → n = n'

theorem assignAll_ok (b : Bus) (l : List (String × Nat)) : ∀ st : Store Nat, (∀ p ∈ l, ∃ h, b.binds p.1 h) → (b.assignAll l st).2 = none := by
  induction l with
  | nil => intro st _; rfl
  | cons p r ih =>
    intro st h
    obtain ⟨x, hx⟩ := h p (by simp)
    obtain ⟨n, v⟩ := p
    have : b.assign n v st = (st.set x v, none) := by unfold Bus.assign; rw [show dictGet b.signals n = some (some x) from hx]
    rw [Bus.assignAll, this]
    exact ih _ (fun q hq => h q (by simp [hq]))

theorem assign_value (b : Bus) (hb : b.Separate) (n m : String) (v : Nat) (st : Store Nat) (h : Handle) (hm : b.binds m h) :
    (b.assign n v st).1 h = if m = n then v else st h := by
  unfold Bus.assign
  by_cases e : m = n
  · subst e
    rw [show dictGet b.signals m = some (some h) from hm, if_pos rfl]
    simp [Store.set]
  · rw [if_neg e]
    cases hd : dictGet b.signals n with
    | none => rfl
    | some o =>
      cases o with
      | none => rfl
      | some x =>
        have : h ≠ x := fun h' => e (hb m n h hm (by rw [h']; exact hd))
        simp [Store.set, this]

theorem assignAll_value (b : Bus) (hb : b.Separate) (l : List (String × Nat)) : ∀ st : Store Nat, (l.map Prod.fst).Nodup → (b.assignAll l st).2 = none →
    ∀ m h, b.binds m h → (b.assignAll l st).1 h = match l.find? (fun p => p.1 == m) with | some p => p.2 | none => st h := by
  induction l with
  | nil => intro st _ _ m h hm; rfl
  | cons p r ih =>
    intro st hd he m h hm
    obtain ⟨n, v⟩ := p
    have hv := assign_value b hb n m v st h hm
    rw [Bus.assignAll] at he ⊢
    cases ha : b.assign n v st with
    | mk st' e =>
      rw [ha] at he hv
      cases e with
      | some e => simp at he
      | none =>
        simp only [List.map_cons, List.nodup_cons] at hd
        simp only at he hv ⊢
        rw [ih st' hd.2 he m h hm, List.find?_cons]
        by_cases e : n = m
        · subst e
          have hnone : r.find? (fun p => p.1 == n) = none := by
            rw [List.find?_eq_none]
            intro q hq hqn
            exact hd.1 (List.mem_map.mpr ⟨q, hq, by simpa using hqn⟩)
          simp [hnone, hv]
        · have e' : (n == m) = false := by simpa using e
          rw [e']
          rw [if_neg (fun h => e h.symm)] at hv
          rw [hv]

theorem zeroPresent_value (b : Bus) (hb : b.Separate) (l : List String) : ∀ st : Store Nat,
    ∀ m h, b.binds m h → b.zeroPresent l st h = if m ∈ l then 0 else st h := by
  induction l with
  | nil => intro st m h _; simp [Bus.zeroPresent]
  | cons n r ih =>
    intro st m h hm
    show b.zeroPresent r (b.assign n 0 st).1 h = _
    rw [ih _ m h hm, assign_value b hb n m 0 st h hm]
    by_cases e : m = n <;> by_cases e' : m ∈ r <;> simp [e, e']

/-- C91, AXI4 and AXI4-Lite master: on a bus with the five handshake signals it drives, nothing is requested, responses are accepted,
identifiers, locks, caching and protection attributes, regions and qualities of service are 0 where they exist, and no other signal is touched. -/
theorem C91_axi_master (b : Bus) (hb : b.Separate) (hs : ∀ n ∈ ["AWVALID", "WVALID", "ARVALID", "BREADY", "RREADY"], ∃ h, b.binds n h)
    (st : Store Nat) :
    (axiMasterInit b st).2 = none ∧ ∀ n h, b.binds n h → (axiMasterInit b st).1 h =
      if n ∈ ["AWVALID", "WVALID", "ARVALID"] then 0
      else if n ∈ ["BREADY", "RREADY"] then 1
      else if n ∈ ["AWID", "AWREGION", "AWLOCK", "AWCACHE", "AWPROT", "AWQOS", "ARID", "ARREGION", "ARLOCK", "ARCACHE", "ARPROT", "ARQOS"] then 0
      else st h := by
  have hok := assignAll_ok b [("AWVALID", 0), ("WVALID", 0), ("ARVALID", 0), ("BREADY", 1), ("RREADY", 1)] st (by
    intro p hp
    simp only [List.mem_cons, List.not_mem_nil, or_false] at hp
    rcases hp with rfl | rfl | rfl | rfl | rfl <;> exact hs _ (by simp))
  have hv := assignAll_value b hb _ st (by decide) hok
  unfold axiMasterInit
  cases ha : b.assignAll [("AWVALID", 0), ("WVALID", 0), ("ARVALID", 0), ("BREADY", 1), ("RREADY", 1)] st with
  | mk st' e =>
    rw [ha] at hok hv
    simp only at hok hv
    subst hok
    refine ⟨rfl, fun n h hn => ?_⟩
    show b.zeroPresent axiUnsupported st' h = _
    rw [zeroPresent_value b hb _ st' n h hn, hv n h hn]
    by_cases h1 : n ∈ ["AWVALID", "WVALID", "ARVALID", "BREADY", "RREADY"]
    · simp only [List.mem_cons, List.not_mem_nil, or_false] at h1
      rcases h1 with rfl | rfl | rfl | rfl | rfl <;> simp [axiUnsupported]
    · simp only [List.mem_cons, List.not_mem_nil, or_false, not_or] at h1
      obtain ⟨a1, a2, a3, a4, a5⟩ := h1
      have b1 : ("AWVALID" == n) = false := beq_eq_false_iff_ne.mpr (Ne.symm a1)
      have b2 : ("WVALID" == n) = false := beq_eq_false_iff_ne.mpr (Ne.symm a2)
      have b3 : ("ARVALID" == n) = false := beq_eq_false_iff_ne.mpr (Ne.symm a3)
      have b4 : ("BREADY" == n) = false := beq_eq_false_iff_ne.mpr (Ne.symm a4)
      have b5 : ("RREADY" == n) = false := beq_eq_false_iff_ne.mpr (Ne.symm a5)
      simp only [List.find?_cons, b1, b2, b3, b4, b5, List.find?_nil]
      simp [axiUnsupported, a1, a2, a3, a4, a5]

/-- C91, AXI4 slave: both address channels are ready and no data are offered; no other signal is touched. -/
theorem C91_axi_slave (b : Bus) (hb : b.Separate) (hs : ∀ n ∈ ["ARREADY", "RVALID", "RLAST", "AWREADY"], ∃ h, b.binds n h) (st : Store Nat) :
    (axiSlaveInit b st).2 = none ∧ ∀ n h, b.binds n h → (axiSlaveInit b st).1 h =
      if n ∈ ["ARREADY", "AWREADY"] then 1 else if n ∈ ["RVALID", "RLAST"] then 0 else st h := by
  have hok := assignAll_ok b [("ARREADY", 1), ("RVALID", 0), ("RLAST", 0), ("AWREADY", 1)] st (by
    intro p hp
    simp only [List.mem_cons, List.not_mem_nil, or_false] at hp
    rcases hp with rfl | rfl | rfl | rfl <;> exact hs _ (by simp))
  refine ⟨hok, fun n h hn => ?_⟩
  unfold axiSlaveInit
  rw [assignAll_value b hb _ st (by decide) hok n h hn]
  by_cases h1 : n ∈ ["ARREADY", "RVALID", "RLAST", "AWREADY"]
  · simp only [List.mem_cons, List.not_mem_nil, or_false] at h1
    rcases h1 with rfl | rfl | rfl | rfl <;> simp
  · simp only [List.mem_cons, List.not_mem_nil, or_false, not_or] at h1
    obtain ⟨a1, a2, a3, a4⟩ := h1
    have b1 : ("ARREADY" == n) = false := beq_eq_false_iff_ne.mpr (Ne.symm a1)
    have b2 : ("RVALID" == n) = false := beq_eq_false_iff_ne.mpr (Ne.symm a2)
    have b3 : ("RLAST" == n) = false := beq_eq_false_iff_ne.mpr (Ne.symm a3)
    have b4 : ("AWREADY" == n) = false := beq_eq_false_iff_ne.mpr (Ne.symm a4)
    simp only [List.find?_cons, b1, b2, b3, b4, List.find?_nil]
    simp [a1, a2, a3, a4]

/-- C91, a bus without one of the handshake signals is reported by the constructor. -/
theorem C91_axi_missing (b : Bus) (st : Store Nat) (n : String) (hn : ∀ h, ¬ b.binds n h) :
    (n ∈ ["AWVALID", "WVALID", "ARVALID", "BREADY", "RREADY"] → (axiMasterInit b st).2 = some .attributeError) ∧
    (n ∈ ["ARREADY", "RVALID", "RLAST", "AWREADY"] → (axiSlaveInit b st).2 = some .attributeError) := by
  have key : ∀ (l : List (String × Nat)) (st : Store Nat), n ∈ l.map Prod.fst → (b.assignAll l st).2 = some .attributeError := by
    intro l
    induction l with
    | nil => intro st h; cases h
    | cons p r ih =>
      intro st h
      obtain ⟨m, v⟩ := p
      rw [Bus.assignAll]
      cases hd : dictGet b.signals m with
      | none => simp [Bus.assign, hd]
      | some o =>
        cases o with
        | none => simp [Bus.assign, hd]
        | some x =>
          simp only [Bus.assign, hd]
          refine ih _ ?_
          rcases List.mem_cons.mp h with h | h
          · simp only at h; subst h; exact absurd hd (hn x)
          · exact h
  constructor
  · intro h
    have h := key [("AWVALID", 0), ("WVALID", 0), ("ARVALID", 0), ("BREADY", 1), ("RREADY", 1)] st (by simpa using h)
    unfold axiMasterInit
    cases ha : b.assignAll [("AWVALID", 0), ("WVALID", 0), ("ARVALID", 0), ("BREADY", 1), ("RREADY", 1)] st with
    | mk st' e => rw [ha] at h; simp only at h; subst h; rfl
  · intro h
    exact key _ st (by simpa using h)

/-- C91, Avalon-MM master: the lock is free, no read or write is requested, chip select and byte enables are 0, address and data unknown. -/
theorem C91_avalon_master (c : MmCfg) (o : MmOut) :
    (mmInit c o).busy = false ∧ (c.hasRead = true → (mmReads c).valid (mmInit c o) = false) ∧ (c.hasWrite = true → (mmWrites c).valid (mmInit c o) = false) ∧
    (c.hasRead = true → (mmInit c o).read = .zero) ∧ (c.hasWrite = true → (mmInit c o).write = .zero) ∧
    (c.hasCs = true → (mmInit c o).cs = .zero) ∧ (∀ w, c.beW = some w → (mmInit c o).byteenable = List.replicate w .zero) ∧
    (mmInit c o).address = List.replicate c.addrW .x ∧ (c.hasWrite = true → (mmInit c o).writedata = List.replicate c.dataW .x) ∧
    -- signals that do not exist are not touched
    (c.hasRead = false → (mmInit c o).read = o.read) ∧ (c.hasWrite = false → (mmInit c o).write = o.write ∧ (mmInit c o).writedata = o.writedata) ∧
    (c.hasCs = false → (mmInit c o).cs = o.cs) ∧ (c.beW = none → (mmInit c o).byteenable = o.byteenable) := by
  refine ⟨rfl, ?_, ?_, ?_, ?_, ?_, ?_, rfl, ?_, ?_, ?_, ?_, ?_⟩
  · intro h; simp [mmInit, mmReads, h]
  · intro h; simp [mmInit, mmWrites, h]
  · intro h; simp [mmInit, h]
  · intro h; simp [mmInit, h]
  · intro h; simp [mmInit, h]
  · intro w h; simp [mmInit, h, natToBits_zero]
  · intro h; simp [mmInit, h]
  · intro h; simp [mmInit, h]
  · intro h; simp [mmInit, h]
  · intro h; simp [mmInit, h]
  · intro h; simp [mmInit, h]

/-- C91, OPB master: not selected, and the lock is free; no other signal is touched. -/
theorem C91_opb (o : OpbOut) : (opbInit o).select = .zero ∧ (opbInit o).busy = false ∧
    (opbInit o).abus = o.abus ∧ (opbInit o).rnw = o.rnw ∧ (opbInit o).be = o.be ∧ (opbInit o).dbusOut = o.dbusOut ∧ (opbInit o).dbusIn = o.dbusIn :=
  ⟨rfl, rfl, rfl, rfl, rfl, rfl, rfl⟩

/-- C91, Avalon-ST driver (not constructed in the ReadOnly phase): valid is 0, the data are unknown. -/
theorem C91_avalon_st (cfg : StCfg) (s : Sim StIn StOut) (hs : s.phase ≠ .ro) :
    stConstruct cfg s = ([], .ok () { s with out := ⟨.zero, List.replicate cfg.width .x⟩ }) := if_neg hs

/-- C91, packet driver: valid is 0. -/
theorem C91_avalon_pkts (c : PkCfg) (s : Sim PkIn PkOut) (hs : s.phase ≠ .ro) :
    ∃ o, pkConstruct c s = ([], .ok () { s with out := o }) ∧ o.valid = .zero ∧ o.data = List.replicate c.width .x ∧
      o.sop = .x ∧ o.eop = .x := ⟨_, if_neg hs, rfl, rfl, rfl, rfl⟩

/-- C91, Avalon memory: construction fails exactly on a bus with neither read nor write data, or with burst count but no wait request;
otherwise the memory has the contents given, no answer is pending or announced, and it makes masters wait exactly if it supports bursts and
is to do so (`WriteBurstWaitReq`). -/
theorem C91_memory (c : MemCfg) (memory : Nat → Option Nat) (o : MemOut) :
    ((∃ o', memInit c memory o = .ok o') ↔ (c.hasReaddata = true ∨ c.hasWritedata = true) ∧ (c.hasBurst = true → c.hasWait = true)) ∧
    ∀ o', memInit c memory o = .ok o' → o'.mem = memory ∧ o'.responses = [] ∧ o'.readdata = o.readdata ∧
      (c.hasRdv = true → o'.readdatavalid = .zero) ∧
      (c.hasWait = true → o'.waitrequest = if c.hasBurst = true ∧ c.writeBurstWaitReq = true then .one else .zero) := by
  constructor
  · unfold memInit
    cases c.hasReaddata <;> cases c.hasWritedata <;> cases c.hasBurst <;> cases c.hasWait <;> simp
  · intro o' h
    unfold memInit at h
    split at h
    · cases h
    · split at h
      · cases h
      · cases h
        refine ⟨rfl, rfl, rfl, fun h => by simp [h], fun h => ?_⟩
        cases c.hasBurst <;> cases c.writeBurstWaitReq <;> simp [h, Logic.ofBool]

/-! ## The hypotheses can be met -/

/-- A bus of eight signals, one of them not a handshake signal and one not driven by the master. -/
def conBus : Bus := ⟨[("AWVALID", some 0), ("WVALID", some 1), ("ARVALID", some 2), ("BREADY", some 3), ("RREADY", some 4), ("AWPROT", some 5), ("RDATA", some 6), ("ARPROT", none)]⟩

theorem conBus_binds (n : String) (h : Handle) (hn : conBus.binds n h) :
    (n, some h) ∈ conBus.signals := by
  unfold Bus.binds at hn
  exact mem_of_dictGet _ _ _ hn

example : conBus.Separate := by
  intro n n' h h1 h2
  have h1 := conBus_binds n h h1
  have h2 := conBus_binds n' h h2
  simp only [conBus, List.mem_cons, Prod.mk.injEq, Option.some.injEq, List.not_mem_nil, or_false] at h1 h2
  rcases h1 with ⟨rfl, rfl⟩ | ⟨rfl, rfl⟩ | ⟨rfl, rfl⟩ | ⟨rfl, rfl⟩ | ⟨rfl, rfl⟩ | ⟨rfl, rfl⟩ | ⟨rfl, rfl⟩ | ⟨_, h⟩ <;> simp_all

example : ∀ n ∈ ["AWVALID", "WVALID", "ARVALID", "BREADY", "RREADY"], ∃ h, conBus.binds n h := by
  intro n hn
  simp only [List.mem_cons, List.not_mem_nil, or_false] at hn
  rcases hn with rfl | rfl | rfl | rfl | rfl
  · exact ⟨0, rfl⟩
  · exact ⟨1, rfl⟩
  · exact ⟨2, rfl⟩
  · exact ⟨3, rfl⟩
  · exact ⟨4, rfl⟩

example : (List.range 8).map (axiMasterInit conBus (fun _ => 9)).1 = [0, 0, 0, 1, 1, 0, 9, 9] ∧ (axiMasterInit conBus (fun _ => 9)).2 = none ∧
    (axiSlaveInit conBus (fun _ => 9)).2 = some .attributeError := by
  refine ⟨?_, ?_, ?_⟩ <;> decide

end CocotbBus
