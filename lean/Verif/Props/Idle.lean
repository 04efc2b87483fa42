import Verif.Proof.Idle
import Verif.Proof.AxiProps
import Verif.Props.AvalonMM
import Verif.Props.AxiRead
import Verif.Props.Opb

/-! # C105: a transfer that returns leaves the bus idle -/

namespace CocotbBus
open Spec Coro

/-- C105, Avalon-ST: valid is 0, the data are unknown. -/
theorem C105_avalon_st (cfg : StCfg) (value : AvVal) (sync : Bool) (v v' : Valids) (s s' : Sim StIn StOut)
    (h : (stSend cfg value sync v s).2 = .ok v' s') : s'.out.valid = .zero ∧ s'.out.data = List.replicate cfg.width .x := by
  have := stSend_leaves cfg value sync v s v' s' h
  rw [this]; exact ⟨rfl, rfl⟩

/-- C105, packets: valid is 0, and startofpacket, endofpacket, data, and, where they exist and are used, empty and channel are
unknown; what does not exist or is not used is not touched. -/
theorem C105_avalon_pkts (c : PkCfg) (pkt : Bytes) (sync : Bool) (channel : Option Int) (v v' : Valids) (s s' : Sim PkIn PkOut)
    (h : (pkSend c pkt sync channel v s).2 = .ok v' s') :
    s'.out.valid = .zero ∧ s'.out.sop = .x ∧ s'.out.eop = .x ∧ s'.out.data = List.replicate c.width .x ∧
    s'.out.empty = (if c.useEmpty then List.replicate (c.emptyW.getD 0) .x else s.out.empty) ∧
    s'.out.channel = (match c.channelW with | some w => List.replicate w .x | none => s.out.channel) := by
  obtain ⟨o', ho⟩ := pkSend_leaves c pkt sync channel v s v' s' h
  have he : c.useEmpty = false → s'.out.empty = s.out.empty := fun he =>
    keeps_same (g := fun o : PkOut => o.empty) (fun e => pkSend_keeps c
      (fun o ho => by simpa only [pkDefaults, he, Bool.false_eq_true, if_false] using ho)
      (fun o ho => by simpa only [pkCleanup, he, Bool.false_eq_true, if_false] using ho)
      (pkBeat_keeps c (fun _ h => h) (fun _ h => h) (fun _ _ h => h) (fun _ h => h) (fun _ _ h => h) (fun _ _ _ _ h => h)
        (fun ht => by rw [he] at ht; cases ht)) pkt sync channel v) h
  have hc : c.channelW = none → s'.out.channel = s.out.channel := fun hc =>
    keeps_same (g := fun o : PkOut => o.channel) (fun e => pkSend_keeps c
      (fun o ho => by simpa only [pkDefaults, hc] using ho) (fun o ho => by simpa only [pkCleanup, hc] using ho)
      (pkBeat_keeps c (fun _ h => h) (fun _ h => h) (fun _ _ h => h) (fun _ h => h) (fun _ _ h => h)
        (fun w hw => by rw [hc] at hw; cases hw) (fun _ _ _ h => h)) pkt sync channel v) h
  refine ⟨by rw [ho]; rfl, by rw [ho]; rfl, by rw [ho]; rfl, by rw [ho]; rfl, ?_, ?_⟩
  · cases hu : c.useEmpty with
    | false => rw [if_neg (by simp)]; exact he hu
    | true => rw [ho, if_pos rfl]; simp only [pkCleanup, hu, if_true]
  · cases hu : c.channelW with
    | none => exact hc hu
    | some w => rw [ho]; simp only [pkCleanup, hu]

/-- C105, packets given as words: valid is 0, nothing else has changed. -/
theorem C105_avalon_words (c : PkCfg) (words : List PkWord) (sync : Bool) (v v' : Valids) (s s' : Sim PkIn PkOut)
    (h : (pkSendWords c words sync v s).2 = .ok v' s') : s'.out = { s.out with valid := .zero } := by
  have hv : Leaves (fun o => o.valid = .zero) (pkSendWords c words sync v) :=
    Leaves.bind fun _ => Leaves.bind fun _ => Leaves.bindKeeps (Leaves.write _ fun _ => rfl) fun _ => Keeps.pure _
  have hq : ∀ e, Keeps (fun o : PkOut => ({ o with valid := .zero } : PkOut) = e) (pkSendWords c words sync v) := fun e =>
    Keeps.bind (pkWords_keeps c (fun _ h => h) (fun _ h => h) words sync v) fun _ => Keeps.bind Keeps.awaitEdge fun _ =>
      Keeps.bind (Keeps.write _ fun _ h => h) fun _ => Keeps.pure _
  have hk : ({ s'.out with valid := .zero } : PkOut) = { s.out with valid := .zero } := keeps_same hq h
  have := hv s v' s' h
  rw [← hk, ← this]

/-- C105, Avalon-MM read: read is 0, the address is unknown, byte enables and chip select are 0 where they exist, the lock is free;
nothing else has changed. -/
theorem C105_avalon_read (c : MmCfg) (address : Nat) (sync : Bool) (d : LogicArray) (s s' : Sim MmIn MmOut)
    (h : (mmRead c address sync s).2 = .ok d s') :
    s'.out.read = .zero ∧ s'.out.address = List.replicate c.addrW .x ∧ s'.out.busy = false ∧
    s'.out.cs = (if c.hasCs then .zero else s.out.cs) ∧
    s'.out.byteenable = (match c.beW with | some w => List.replicate w .zero | none => s.out.byteenable) ∧
    s'.out.write = s.out.write ∧ s'.out.writedata = s.out.writedata := by
  have same : ∀ {V : Type} (g : MmOut → V), (∀ o b, g { o with busy := b } = g o) → (∀ o a, g { o with address := a } = g o) → (∀ o r, g { o with read := r } = g o) →
      (∀ o, g (mmSelect c o) = g o) → (∀ o, g (mmDeselect c o) = g o) → g s'.out = g s.out := by
    intro V g h1 h2 h3 h4 h5
    exact keeps_same (fun v => mmRead_same c address sync (fun o b ho => (h1 o b).trans ho) (fun o b ho => (h2 o b).trans ho) (fun o b ho => (h3 o b).trans ho)
      (fun o ho => (h4 o).trans ho) (fun o ho => (h5 o).trans ho)) h
  refine ⟨mmRead_leaves c address sync (Q := fun o => o.read = .zero) (fun _ _ h => h) (fun _ => rfl) s d s' h,
    mmRead_leaves c address sync (Q := fun o => o.address = List.replicate c.addrW .x) (fun _ _ h => h) (fun _ => rfl) s d s' h,
    mmRead_unlocked c address sync s d s' h, ?_, ?_, same (·.write) (fun _ _ => rfl) (fun _ _ => rfl) (fun _ _ => rfl) (fun _ => rfl) (fun _ => rfl),
    same (·.writedata) (fun _ _ => rfl) (fun _ _ => rfl) (fun _ _ => rfl) (fun _ => rfl) (fun _ => rfl)⟩
  · cases hc : c.hasCs with
    | true => exact mmRead_leaves c address sync (Q := fun o => o.cs = .zero) (fun _ _ h => h) (fun _ => by simp [mmDeselect, hc]) s d s' h
    | false => exact same (·.cs) (fun _ _ => rfl) (fun _ _ => rfl) (fun _ _ => rfl) (fun _ => by simp [mmSelect, hc]) (fun _ => by simp [mmDeselect, hc])
  · cases hc : c.beW with
    | some w =>
      exact mmRead_leaves c address sync (Q := fun o => o.byteenable = List.replicate w .zero) (fun _ _ h => h) (fun _ => by simp [mmDeselect, hc, natToBits_zero]) s d s' h
    | none => exact same (·.byteenable) (fun _ _ => rfl) (fun _ _ => rfl) (fun _ _ => rfl) (fun _ => by simp [mmSelect, hc]) (fun _ => by simp [mmDeselect, hc])

/-- C105, Avalon-MM write: write is 0, address and data are unknown, byte enables and chip select are 0 where they exist, the lock is
free; nothing else has changed. -/
theorem C105_avalon_write (c : MmCfg) (address value : Nat) (s s' : Sim MmIn MmOut) (h : (mmWrite c address value s).2 = .ok () s') :
    s'.out.write = .zero ∧ s'.out.address = List.replicate c.addrW .x ∧ s'.out.writedata = List.replicate c.dataW .x ∧ s'.out.busy = false ∧
    s'.out.cs = (if c.hasCs then .zero else s.out.cs) ∧
    s'.out.byteenable = (match c.beW with | some w => List.replicate w .zero | none => s.out.byteenable) ∧ s'.out.read = s.out.read := by
  obtain ⟨o', ho⟩ := mmWrite_leaves c address value s () s' h
  have same : ∀ {V : Type} (g : MmOut → V), (∀ o b, g { o with busy := b } = g o) → (∀ o a, g { o with address := a } = g o) → (∀ o a, g { o with writedata := a } = g o) →
      (∀ o r, g { o with write := r } = g o) → (∀ o, g (mmSelect c o) = g o) → (∀ o, g (mmDeselect c o) = g o) → g s'.out = g s.out := by
    intro V g h1 h2 h3 h4 h5 h6
    exact keeps_same (fun v => mmWrite_same c address value (fun o b ho => (h1 o b).trans ho) (fun o b ho => (h2 o b).trans ho) (fun o b ho => (h3 o b).trans ho)
      (fun o b ho => (h4 o b).trans ho) (fun o ho => (h5 o).trans ho) (fun o ho => (h6 o).trans ho)) h
  refine ⟨by rw [ho]; rfl, by rw [ho]; rfl, by rw [ho], by rw [ho], ?_, ?_,
    same (·.read) (fun _ _ => rfl) (fun _ _ => rfl) (fun _ _ => rfl) (fun _ _ => rfl) (fun _ => rfl) (fun _ => rfl)⟩
  · cases hc : c.hasCs with
    | true => rw [ho]; simp [mmDeselect, hc]
    | false => exact same (·.cs) (fun _ _ => rfl) (fun _ _ => rfl) (fun _ _ => rfl) (fun _ _ => rfl) (fun _ => by simp [mmSelect, hc]) (fun _ => by simp [mmDeselect, hc])
  · cases hc : c.beW with
    | some w => rw [ho]; simp [mmDeselect, hc, natToBits_zero]
    | none => exact same (·.byteenable) (fun _ _ => rfl) (fun _ _ => rfl) (fun _ _ => rfl) (fun _ _ => rfl) (fun _ => by simp [mmSelect, hc]) (fun _ => by simp [mmDeselect, hc])

/-- C105, AXI write (any arguments): if it returns, or raises because of an error response, neither an address nor data are offered. -/
theorem C105_axi_write (c : AxCfg) (address : Nat) (value : List Nat) (size : Option Int) (burst : AxiBurst) (byteEnable : List (Option Nat))
    (addressLatency dataLatency : Nat) (sync : Bool) (s s' : Sim AxIn (AddrOut × WOut)) (h0 : s.out.2.valid = .zero)
    (h : (axiWrite c address value size burst byteEnable addressLatency dataLatency sync s).2 = .ok () s' ∨
      ∃ code, (axiWrite c address value size burst byteEnable addressLatency dataLatency sync s).2 = .err (.axiProtocol code) s') :
    s'.out.1.valid = .zero ∧ s'.out.2.valid = .zero :=
  axiWrite_idle c address value size burst byteEnable addressLatency dataLatency sync s s' h0 (h.imp (fun h => ⟨(), h⟩) id)

/-- C105, AXI read (any arguments): if it returns, or raises because of an error response, no address is offered. -/
theorem C105_axi_read (c : AxCfg) (address : Nat) (length : Int) (size : Option Int) (burst : AxiBurst) (returnRresp sync : Bool) (s s' : Sim AxIn AddrOut)
    (h : (∃ d, (axiRead c address length size burst returnRresp sync s).2 = .ok d s') ∨
      ∃ code, (axiRead c address length size burst returnRresp sync s).2 = .err (.axiProtocol code) s') :
    s'.out.valid = .zero :=
  axiRead_idle c address length size burst returnRresp sync s s' h

/-- C105, AXI4-Lite. -/
theorem C105_axi_lite (c : AxCfg) (address : Nat) (value : Nat ⊕ List Nat) (byteEnable : Option Nat) (addressLatency dataLatency : Nat) (sync : Bool) :
    (∀ s s' r, s.out.2.valid = .zero → (liteWrite c address value byteEnable addressLatency dataLatency sync s).2 = .ok r s' →
      s'.out.1.valid = .zero ∧ s'.out.2.valid = .zero) ∧
    (∀ s s' r, (liteRead c address sync s).2 = .ok r s' → s'.out.valid = .zero) := by
  refine ⟨fun s s' r h0 h => ?_, fun s s' r h => ?_⟩
  · cases value with
    | inr l => cases h
    | inl v =>
      obtain ⟨_, s1, h1, h2⟩ := ok_of_bind h
      have e : s' = s1 := by
        unfold Coro.ofExcept at h2
        split at h2 <;> cases h2
        rfl
      rw [e]
      exact axiWrite_idle c address [v] none .incr [byteEnable] addressLatency dataLatency sync s s1 h0 (.inl ⟨_, h1⟩)
  · obtain ⟨d, s1, h1, h2⟩ := ok_of_bind h
    have e : s' = s1 := by
      unfold liteFirst at h2
      split at h2 <;> cases h2
      rfl
    rw [e]
    exact axiRead_idle c address 1 none .incr false sync s s1 (.inl ⟨_, h1⟩)

/-- C105, OPB: not selected, and the lock is free. -/
theorem C105_opb (c : OpbCfg) (address value : Nat) (sync : Bool) (s s' : Sim OpbIn OpbOut)
    (h : (∃ d, (opbRead c address sync s).2 = .ok d s') ∨ (opbWrite c address value sync s).2 = .ok () s') :
    s'.out.select = .zero ∧ s'.out.busy = false := by
  have hr : Leaves (fun o => o.select = .zero) (opbRead c address sync) := by
    unfold opbRead
    exact Leaves.bind fun _ => Leaves.bind fun _ => Leaves.bind fun _ => Leaves.bind fun _ => Leaves.bind fun _ => Leaves.bind fun _ => Leaves.bind fun _ =>
      Leaves.bind fun _ => Leaves.bind fun _ => Leaves.bindKeeps (Leaves.write _ fun _ => rfl) fun _ => Keeps.bind (Keeps.setPy _ fun _ h => h) fun _ => Keeps.pure _
  have hr' : Leaves (fun o => o.busy = false) (opbRead c address sync) := by
    unfold opbRead
    exact Leaves.bind fun _ => Leaves.bind fun _ => Leaves.bind fun _ => Leaves.bind fun _ => Leaves.bind fun _ => Leaves.bind fun _ => Leaves.bind fun _ =>
      Leaves.bind fun _ => Leaves.bind fun _ => Leaves.bind fun _ => Leaves.bindKeeps (Leaves.setPy _ fun _ => rfl) fun _ => Keeps.pure _
  have hw : Leaves (fun o => o.select = .zero) (opbWrite c address value sync) := by
    unfold opbWrite
    exact Leaves.bind fun _ => Leaves.bind fun _ => Leaves.bind fun _ => Leaves.bind fun _ => Leaves.bind fun _ => Leaves.bind fun _ => Leaves.bind fun _ =>
      Leaves.bind fun _ => Leaves.bindKeeps (Leaves.write _ fun _ => rfl) fun _ => Keeps.setPy _ fun _ h => h
  have hw' : Leaves (fun o => o.busy = false) (opbWrite c address value sync) := by
    unfold opbWrite
    exact Leaves.bind fun _ => Leaves.bind fun _ => Leaves.bind fun _ => Leaves.bind fun _ => Leaves.bind fun _ => Leaves.bind fun _ => Leaves.bind fun _ =>
      Leaves.bind fun _ => Leaves.bind fun _ => Leaves.setPy _ fun _ => rfl
  rcases h with ⟨d, h⟩ | h
  · exact ⟨hr s d s' h, hr' s d s' h⟩
  · exact ⟨hw s () s' h, hw' s () s' h⟩

/-! ### Instances: transfers that return -/

-- Avalon-ST with two cycles without ready
example : (stSend ⟨8, true, true⟩ (.bytes [0x5A#8]) true ⟨.always, 0, none⟩ ⟨.mid, ⟨.x, []⟩, ⟨.zero⟩, ⟨.zero⟩, [⟨.zero⟩, ⟨.one⟩, ⟨.zero⟩]⟩).2.isOk = true := by
  decide +kernel

/-- A bus of two symbols with `empty` and `channel`. -/
def idlePk : PkCfg := { width := 16, hasReady := true, emptyW := some 1, channelW := some 2, maxChannel := 3 }

-- A packet of three bytes on channel 2, and two words
example : (pkSend idlePk [1#8, 2#8, 3#8] true (some 2) ⟨.always, 0, none⟩
      ⟨.mid, ⟨.x, .x, .x, [], [], []⟩, ⟨.zero, none, none⟩, ⟨.zero, none, none⟩, List.replicate 6 ⟨.one, none, none⟩⟩).2.isOk = true ∧
    (pkSendWords idlePk [{ sop := some .one, data := some (natToBits 16 0x102) }, { eop := some .one }] true ⟨.always, 0, none⟩
      ⟨.mid, ⟨.x, .x, .x, [], [], []⟩, ⟨.zero, none, none⟩, ⟨.zero, none, none⟩, List.replicate 6 ⟨.one, none, none⟩⟩).2.isOk = true := by
  decide +kernel

-- Avalon-MM
example : (mmRead exMm 3 true exMmSim).2.isOk = true ∧ (mmWrite exMm 3 9 exMmSim).2.isOk = true := by decide +kernel

-- AXI: two beats written and read, and error responses to a write and to a read
example : (axiWrite cfgAx 0x101 [0x44332211, 0x88776655] none .incr [none] 0 0 true (startW [{}, {}, {}, readyIn, readyIn, readyIn, { bvalid := .one }, {}])).2.isOk = true ∧
    (axiRead cfgAx 0x101 2 none .incr false true (startR [{}, {}, readyIn, {}, rIn 0x33221100 0 .zero, {}, rIn 0x77665544 0 .one, {}])).2.isOk = true ∧
    result (axiWrite cfgAx 0x100 [1] none .incr [none] 0 0 true (startW [{}, readyIn, { bvalid := .one, bready := .one, bresp := natToBits 2 2 }, {}, {}])) =
      some (.error (.axiProtocol 2)) ∧
    result (axiRead cfgAx 0x100 3 none .incr false true (startR [{}, readyIn, {}, rIn 1 0 .zero, rIn 2 2 .zero, rIn 3 3 .one, {}])) = some (.error (.axiProtocol 2)) := by
  decide +kernel

-- AXI4-Lite
example : (liteWrite (.lite 16 4) 0x10 (.inl 7) none 0 0 true (startW [{}, {}, {}, readyIn, readyIn, readyIn, { bvalid := .one }, {}])).2.isOk = true ∧
    (liteRead (.lite 16 4) 0x10 true (startR [{}, {}, readyIn, {}, rIn 0x33221100 0 .zero, {}])).2.isOk = true := by decide +kernel

-- OPB
example : (opbRead exOpb 5 true { exOpbSim [true] with cur := { xferAck := .one, dbusOut := natToBits 8 7 } }).2.isOk = true ∧
    (opbWrite exOpb 5 9 true { exOpbSim [true] with cur := { xferAck := .one, dbusOut := natToBits 8 7 } }).2.isOk = true := by decide +kernel

end CocotbBus
