import Verif.Proof.AxiParExists
import Verif.Props.AxiTests

/-! # C100, C102, C103, C127: what the properties assume of the memory can always be met -/

namespace CocotbBus
open Spec Coro

/-- C102: whatever the calls, the contents of the memory and its responses, and however long: there is a simulation, starting with any idle
signals, in which the memory answers right, and does everything that is due at once. -/
theorem C102_exists (c : AxCfg) (hc : Standard c) (ops : List AxOp) (hops : ∀ op ∈ ops, AxOpOk c op) (code : Nat → Nat → Nat) (hcode : ∀ k n, code k n < 4) (mem : Nat → Byte)
    (ph : Phase) (hph : ph ≠ .ro) (o : AxAll) (ho : o.1.1.valid = .zero ∧ o.1.2.valid = .zero ∧ o.2.valid = .zero) (N : Nat) :
    ∃ s : Sim AxIn AxAll, s.phase = ph ∧ s.out = o ∧ s.rest.length = N ∧ (∀ i ∈ s.cur :: s.rest, GoodBeat c.dataBytes i ∧ GoodResp i) ∧
      AxMem.Serves c (AxMem.idle code 0 mem) (axUse c ops s).2.1 ∧ AxMem.Prompt 1 c (AxMem.idle code 0 mem) AxWait.zero (axUse c ops s).2.1 :=
  axUse_exists c hc ops hops code hcode mem ph hph o ho N

/-- C100: for every test there is a simulation with a memory in which it runs to its end, and all its reads have returned what was stored. -/
theorem C100_exists (c : AxCfg) (hc : Standard c) (ops : List AxOp) (hops : ∀ op ∈ ops, AxOpOk c op) (mem : Nat → Byte)
    (ph : Phase) (hph : ph ≠ .ro) (o : AxAll) (ho : o.1.1.valid = .zero ∧ o.1.2.valid = .zero ∧ o.2.valid = .zero) :
    ∃ s : Sim AxIn AxAll, s.phase = ph ∧ s.out = o ∧ AxMem.Serves c (AxMem.idle allOkay 0 mem) (axUse c ops s).2.1 ∧ result (axUse c ops s).2 = some (.ok ()) ∧
      (axUse c ops s).1 = (axReads c ops mem).map .ok := by
  obtain ⟨s, h1, h2, h3, h4, h5, h6⟩ := axUse_exists c hc ops hops allOkay (fun _ _ => by unfold allOkay; omega) mem ph hph o ho (ops.map (axCost 1)).sum
  obtain ⟨h7, h8, -⟩ := C100_returns_partial c hc 1 ops hops mem s ⟨by rw [h1]; exact hph, by rw [h2]; exact ho⟩ h4 (by rw [h3]; exact Nat.le_refl _) h5 h6
  exact ⟨s, h1, h2, h5, h7, h8⟩

/-- C103: for any two tasks, one of writes and one of reads, there is a simulation with a memory in which both run to their ends, in as many edges as the
longer one needs on a memory that does everything at once. -/
theorem C103_exists (c : AxCfg) (hc : Standard c) (wops rops : List AxOp) (hw : ∀ op ∈ wops, AxOpOk c op ∧ WriteStep op) (hr : ∀ op ∈ rops, AxOpOk c op ∧ ReadStep op)
    (mem : Nat → Byte) (ph : Phase) (hph : ph ≠ .ro) (o : AxAll) (ho : o.1.1.valid = .zero ∧ o.1.2.valid = .zero ∧ o.2.valid = .zero) :
    ∃ s : Sim AxIn AxAll, s.phase = ph ∧ s.out = o ∧ (∀ i ∈ s.cur :: s.rest, GoodBeat c.dataBytes i ∧ GoodResp i) ∧
      AxMem.Serves c (AxMem.idle allOkay 0 mem) (axPar c wops rops s).trace ∧ (∃ s', (axPar c wops rops s).writeEnd = .ok () s') ∧ (∃ s', (axPar c wops rops s).readEnd = .ok () s') ∧
      (axPar c wops rops s).trace.length ≤ max (wops.map (axCost 1)).sum (rops.map (axCost 1)).sum := by
  obtain ⟨s, h1, h2, h3, h4, h5, h6⟩ := axPar_exists c hc wops rops hw hr mem ph hph o ho (max (wops.map (axCost 1)).sum (rops.map (axCost 1)).sum)
  obtain ⟨h7, h8, -, -, h9⟩ := C103_returns_partial c hc 1 wops rops hw hr mem s ⟨by rw [h1]; exact hph, by rw [h2]; exact ho⟩ h4 (by rw [h3]; exact Nat.le_max_left _ _)
    (by rw [h3]; exact Nat.le_max_right _ _) h5 h6
  exact ⟨s, h1, h2, h4, h5, h7, h8, h9⟩

/-- C127: for all that a test may draw there is a simulation with a memory in which it passes, whatever is in the memory. -/
theorem C127_exists (c : AxCfg) (hc : Standard c) (t : AxTest) (hd : AxTest.Drawn c t) (hr : AxTest.InRange c t) (mem : Nat → Byte)
    (ph : Phase) (hph : ph ≠ .ro) (o : AxAll) (ho : o.1.1.valid = .zero ∧ o.1.2.valid = .zero ∧ o.2.valid = .zero) :
    ∃ s : Sim AxIn AxAll, s.phase = ph ∧ s.out = o ∧ AxMem.Serves c (AxMem.idle allOkay 0 mem) (axUse c (t.ops c) s).2.1 ∧
      result (axUse c (t.ops c) s).2 = some (.ok ()) ∧ AxTest.Passes c t (axUse c (t.ops c) s).1 := by
  obtain ⟨s, h1, h2, h3, h4, h5, h6⟩ := axUse_exists c hc (t.ops c) (tests_legal c hc t hd hr) allOkay (fun _ _ => by unfold allOkay; omega) mem ph hph o ho ((t.ops c).map (axCost 1)).sum
  obtain ⟨h7, h8, -⟩ := C127_completes c hc 1 t hd hr mem s ⟨by rw [h1]; exact hph, by rw [h2]; exact ho⟩ h4 (by rw [h3]; exact Nat.le_refl _) h5 h6
  exact ⟨s, h1, h2, h5, h7, h8⟩

/-! ### Not vacuous -/

/-- a burst of two words in halves with strobes, a narrow read and a WRAP burst on a bus of four bytes -/
example : ∃ s : Sim AxIn AxAll, AxMem.Serves cfgAx (AxMem.idle allOkay 0 (fun _ => 7))
      (axUse cfgAx [.write 0x100 [0x2211, 0x4433] (some 2) .incr [none, some 1] 2 0 true, .read 0x100 1 none .incr true, .read 0x104 4 none .wrap false] s).2.1 ∧
    (axUse cfgAx [.write 0x100 [0x2211, 0x4433] (some 2) .incr [none, some 1] 2 0 true, .read 0x100 1 none .incr true, .read 0x104 4 none .wrap false] s).1 =
      (axReads cfgAx [.write 0x100 [0x2211, 0x4433] (some 2) .incr [none, some 1] 2 0 true, .read 0x100 1 none .incr true, .read 0x104 4 none .wrap false] (fun _ => 7)).map .ok := by
  have l1 : Legal cfgAx 0x100 2 (some 2) .incr 2 := (axiChecks_ok cfgAx 0x100 2 (some 2) .incr 2 2 rfl (by decide)).1 (by decide)
  have l2 : Legal cfgAx 0x100 1 none .incr 4 := (axiChecks_ok cfgAx 0x100 1 none .incr 4 2 rfl (by decide)).1 (by decide)
  have l3 : Legal cfgAx 0x104 4 none .wrap 4 := (axiChecks_ok cfgAx 0x104 4 none .wrap 4 2 rfl (by decide)).1 (by decide)
  obtain ⟨s, -, -, h1, -, h2⟩ := C100_exists cfgAx cfgAx_standard [.write 0x100 [0x2211, 0x4433] (some 2) .incr [none, some 1] 2 0 true, .read 0x100 1 none .incr true, .read 0x104 4 none .wrap false] (by
    intro op hop
    simp only [List.mem_cons, List.not_mem_nil, or_false] at hop
    rcases hop with rfl | rfl | rfl
    · exact ⟨rfl, by decide, by simp, .inl rfl, l1, by intro h; cases h⟩
    · exact ⟨rfl, by decide, l2, by intro h; cases h⟩
    · exact ⟨rfl, by decide, l3, by unfold WrapOk; decide⟩) (fun _ => 7) .edge (by decide) (startAx []).out (by decide)
  exact ⟨s, h1, h2⟩

end CocotbBus
