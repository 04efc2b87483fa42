import Verif.Proof.AvalonMM
import Verif.Proof.Cancel

/-! # Property C44: Avalon-MM master -/

namespace CocotbBus
open Spec Coro

/-- C44, write: on every schedule of waitrequest the write is presented (write=1, the address, the value, all byte enables, chip
select) at the edges from the second on up to and including the first one with waitrequest low, and at no other; no
exception; afterwards write is 0 and the lock is free. -/
theorem C44_write (c : MmCfg) (a v : Nat) (hw : c.hasWrite = true) (ha : a < 2 ^ c.addrW) (hv : v < 2 ^ c.dataW) (s : Sim MmIn MmOut)
    (hfree : s.out.busy = false) (h0 : s.out.write = .zero) (hres : c.hasWait = true → ∀ i ∈ s.rest, Defined i.waitrequest) :
    let r := mmWrite c a v s
    (mmWrites c).Request (mmReq c a (natToBits c.dataW v)) 1 r.1 r.2.isOk ∧
    (∀ e s', r.2 ≠ .err e s') ∧
    (∀ x s', r.2 = .ok x s' → s'.out.write = .zero ∧ s'.out.busy = false) := by
  intro r
  have hr : r = _ := mmWrite_eq c a v hw s hfree
  obtain ⟨h1, h2, h3⟩ := Offers.request (mmWriteBody_offers c a v ha hv { s with out := { s.out with busy := true } } h0 hres)
  rw [hr]
  exact ⟨h1, h3, fun x s' h => ⟨by rw [(h2 x s' h).1]; rfl, by rw [(h2 x s' h).1]; rfl⟩⟩

/-- C44, write progress: it completes unless the slave stalls for ever, i.e. unless waitrequest is high in every later cycle
(except possibly the last one, whose edge has not come). -/
theorem C44_write_progress (c : MmCfg) (a v : Nat) (hw : c.hasWrite = true) (ha : a < 2 ^ c.addrW) (hv : v < 2 ^ c.dataW) (s : Sim MmIn MmOut)
    (hfree : s.out.busy = false) (h0 : s.out.write = .zero) (hres : c.hasWait = true → ∀ i ∈ s.rest, Defined i.waitrequest)
    (i : MmIn) (hi : i ∈ s.rest.dropLast) (hready : (mmWrites c).ready i = true) : (mmWrite c a v s).2.isOk = true := by
  obtain ⟨h1, h2, h3⟩ := C44_write c a v hw ha hv s hfree h0 hres
  have hg := mmWriteBody_good c a v { s with out := { s.out with busy := true } }
  rw [← mmWrite_eq c a v hw s hfree] at hg
  cases he : (mmWrite c a v s).2 with
  | ok x s' => rfl
  | err e s' => exact absurd he (h2 e s')
  | blocked s' =>
    exfalso
    obtain ⟨g1, g2⟩ := hg
    have g3 := g2 s' he
    rw [he] at g1 h1
    simp only [End.sim, g3] at g1
    obtain ⟨idle, held, k1, k2, k3⟩ := h1
    simp only [End.isOk, Bool.false_eq_true, if_false] at k3
    have hlen : s.rest.dropLast ⊆ held.map Prod.snd := by
      rcases k3 with ⟨k3, k4⟩ | ⟨k3, k4⟩
      · rw [k3] at g1
        have : s.rest.dropLast = [] := by
          have := congrArg List.length g1
          simp at this
          apply List.eq_nil_of_length_eq_zero
          simp; omega
        rw [this]; simp
      · rw [k3, List.map_append] at g1
        match idle, k4 with
        | [q], _ =>
          simp only [List.map_cons, List.map_nil, List.cons_append, List.nil_append, List.cons.injEq] at g1
          rw [g1.2, List.dropLast_concat]
          simp
    obtain ⟨q, hq, rfl⟩ := List.mem_map.1 (hlen hi)
    rw [(k2 q hq).2.2] at hready
    cases hready

/-- C44, read: the request is presented like a write's; after the edge at which it is accepted read is 0, and the result is the
readdata of the first cycle from then on with readdatavalid=1 (of the first cycle, without readdatavalid). -/
theorem C44_read (c : MmCfg) (a : Nat) (sync : Bool) (hr : c.hasRead = true) (ha : a < 2 ^ c.addrW) (s : Sim MmIn MmOut)
    (hfree : s.out.busy = false) (h0 : s.out.read = .zero) (hs : sync = true ∨ s.phase ≠ .ro)
    (hres : ∀ i ∈ s.cur :: s.rest, Defined i.waitrequest ∧ Defined i.readdatavalid) :
    let r := mmRead c a sync s
    ∃ t1 t2 accepted, r.1 = t1 ++ t2 ∧
      (mmReads c).Request (mmReq c a []) (if sync then 1 else 0) t1 accepted ∧
      (accepted = false → t2 = [] ∧ r.2.isOk = false) ∧
      (∀ q ∈ t2, q.1.read = .zero ∧ c.hasRdv = true ∧ q.2.readdatavalid = .zero) ∧
      (∀ e s', r.2 ≠ .err e s') ∧
      (∀ d s', r.2 = .ok d s' → s'.out.read = .zero ∧ s'.out.busy = false ∧
        ∃ i, (s.cur :: s.rest)[r.1.length]? = some i ∧ d = i.readdata ∧ (c.hasRdv = true → i.readdatavalid = .one)) ∧
      (r.2.isOk = false → accepted = true → ∀ i ∈ (s.cur :: s.rest).drop t1.length, i.readdatavalid = .zero) := by
  intro r
  have hre : r = _ := mmRead_eq c a sync hr s hfree
  generalize hs0 : ({ s with out := { s.out with busy := true } } : Sim MmIn MmOut) = s0 at hre
  have hcr : s0.cur = s.cur ∧ s0.rest = s.rest ∧ s0.phase = s.phase ∧ s0.out.read = s.out.read := by rw [← hs0]; simp
  rw [bind_run] at hre
  have hoff := mmReadReq_offers c a sync ha s0 (by rw [hcr.2.2.2]; exact h0) (by rw [hcr.2.2.1]; exact hs)
    (fun _ i hi => (hres i (by rw [hcr.1, hcr.2.1] at hi; exact hi)).1)
  obtain ⟨h1, h2, h3⟩ := Offers.request hoff
  have hgood := (mmReadReq_good c a sync s0).1
  rw [hcr.1, hcr.2.1] at hgood
  cases hx : mmReadReq c a sync s0 with
  | mk t1 e =>
    rw [hx] at hre h1 h2 h3 hgood
    cases e with
    | err e s' => exact absurd rfl (h3 e s')
    | blocked s' =>
      rw [andThen_blocked] at hre
      refine ⟨t1, [], false, by rw [hre]; simp, h1, fun _ => ⟨rfl, by rw [hre]; rfl⟩, by simp, ?_, ?_, by simp⟩
      · intro e s' h; rw [hre] at h; cases h
      · intro e s' h; rw [hre] at h; cases h
    | ok u s1 =>
      obtain ⟨p1, p2, p3⟩ := h2 u s1 rfl
      rw [andThen_ok] at hre
      simp only [End.sim] at hgood
      have hdefr : ∀ i ∈ s1.cur :: s1.rest, Defined i.readdatavalid := by
        intro i hi
        exact (hres i (by rw [hgood]; exact List.mem_append_right _ hi)).2
      have hdrop : (s.cur :: s.rest).drop t1.length = s1.cur :: s1.rest := by
        rw [hgood]; simp
      cases hrd : c.hasRdv with
      | false =>
        have hdata : mmReadData c s1 = ([], .ok s1.cur.readdata { s1 with phase := .ro, out := { s1.out with busy := false } }) := by
          unfold mmReadData
          rw [hrd]
          simp only [Bool.false_eq_true, if_false]
          rw [bind_readOnly _ _ _ (by rw [p1]; decide), bind_inp_ro _ _ rfl]
          rfl
        rw [hdata] at hre
        refine ⟨t1, [], true, by rw [hre], h1, by simp, by simp, ?_, ?_, ?_⟩
        · intro e s' h; rw [hre] at h; cases h
        · intro d s' h
          rw [hre] at h ⊢
          cases h
          refine ⟨p2, rfl, s1.cur, ?_, rfl, by simp⟩
          rw [hgood]; simp
        · rw [hre]; simp [End.isOk]
      | true =>
        obtain ⟨ws, g1, g2, g3⟩ := rdvLoop_run s1.rest s1.phase s1.out s1.prev s1.cur (by rw [p1]; decide)
        have hdata : mmReadData c s1 = (loop rdvBody () s1).andThen (fun _ => do
            let i ← inp
            mmRelease
            pure i.readdata) := by
          unfold mmReadData
          rw [hrd]
          simp only [if_true]
          rw [bind_run]
        have hst : s1 = ⟨s1.phase, s1.out, s1.prev, s1.cur, s1.rest⟩ := rfl
        rw [← hst] at g1 g3
        have hws : ∀ q ∈ ws.map (fun i => (s1.out, i)), q.1.read = .zero ∧ true = true ∧ q.2.readdatavalid = .zero := by
          intro q hq
          obtain ⟨i, hi, rfl⟩ := List.mem_map.1 hq
          exact ⟨p2, rfl, g2 i hi⟩
        rcases g3 with ⟨s2, a2, b2, c2, d2, e2⟩ | ⟨s2, a2, b2, c2, e2⟩ | ⟨s2, a2, b2, c2, d2, e2⟩
        · have hl : loop rdvBody () s1 = (ws.map (fun i => (s1.out, i)), .ok () s2) := by rw [← g1, ← a2]
          rw [hdata, hl, andThen_ok, bind_inp_ro _ _ c2] at hre
          have hre : r = (t1 ++ ws.map (fun i => (s1.out, i)), .ok s2.cur.readdata { s2 with out := { s2.out with busy := false } }) := by
            rw [hre]; simp [mmRelease, setPy, bind_run, pure_run]
          refine ⟨t1, ws.map (fun i => (s1.out, i)), true, by rw [hre], h1, by simp, hws, ?_, ?_, ?_⟩
          · intro e s' h; rw [hre] at h; cases h
          · intro d s' h
            rw [hre] at h ⊢
            cases h
            refine ⟨by rw [b2]; exact p2, rfl, s2.cur, ?_, rfl, fun _ => d2⟩
            rw [hgood, e2]
            simp
          · rw [hre]; simp [End.isOk]
        · exact absurd (hdefr s2.cur (by rw [e2]; simp)) c2
        · have hl : loop rdvBody () s1 = (ws.map (fun i => (s1.out, i)), .blocked s2) := by rw [← g1, ← a2]
          rw [hdata, hl, andThen_blocked] at hre
          refine ⟨t1, ws.map (fun i => (s1.out, i)), true, by rw [hre], h1, by simp, hws, ?_, ?_, ?_⟩
          · intro e s' h; rw [hre] at h; cases h
          · intro d s' h; rw [hre] at h; cases h
          · intro _ _ i hi
            rw [hdrop, e2] at hi
            rcases List.mem_append.1 hi with hi | hi
            · exact g2 i hi
            · rw [List.mem_singleton] at hi; subst hi; exact d2

/-- Chip select and byte enables are 0 where they exist, the address is unknown. -/
def Deselected (c : MmCfg) (o : MmOut) : Prop :=
  (c.hasCs = true → o.cs = .zero) ∧ (∀ w, c.beW = some w → o.byteenable = List.replicate w .zero) ∧ o.address = List.replicate c.addrW .x

theorem mmDeselect_deselected (c : MmCfg) (o : MmOut) : Deselected c (mmDeselect c o) := by
  refine ⟨fun h => by simp [mmDeselect, h], fun w h => by simp [mmDeselect, h, natToBits_zero], rfl⟩

/-- C44: whenever a read or write returns, chip select and byte enables are 0 and address (and write data) unknown; the lock is free. -/
theorem C44_released (c : MmCfg) (a v : Nat) (sync : Bool) (s s' : Sim MmIn MmOut) :
    (∀ d, (mmRead c a sync s).2 = .ok d s' → Deselected c s'.out ∧ s'.out.read = .zero ∧ s'.out.busy = false) ∧
    ((mmWrite c a v s).2 = .ok () s' →
      Deselected c s'.out ∧ s'.out.write = .zero ∧ s'.out.writedata = List.replicate c.dataW .x ∧ s'.out.busy = false) := by
  constructor
  · intro d h
    unfold mmRead at h
    obtain ⟨_, s1, -, h⟩ := ok_of_bind h
    obtain ⟨_, s2, -, h⟩ := ok_of_bind h
    obtain ⟨_, s3, -, h⟩ := ok_of_bind h
    obtain ⟨_, s4, -, h⟩ := ok_of_bind h
    obtain ⟨_, s5, -, h⟩ := ok_of_bind h
    obtain ⟨_, s6, -, h⟩ := ok_of_bind h
    obtain ⟨_, s7, -, h⟩ := ok_of_bind h
    obtain ⟨_, s8, -, h⟩ := ok_of_bind h
    obtain ⟨_, s9, h9, h⟩ := ok_of_bind h
    obtain ⟨_, s10, h10, h⟩ := ok_of_bind h
    have k10 : Deselected c s10.out ∧ s10.out.read = .zero := by
      rw [write_out _ _ _ _ h10, write_out _ _ _ _ h9]
      exact ⟨mmDeselect_deselected _ _, rfl⟩
    have hdata : ∀ x : M MmIn MmOut Unit, Keeps (fun o => Deselected c o ∧ o.read = .zero) x →
        ((x >>= fun _ => (do
          let i ← inp
          mmRelease
          pure i.readdata : M MmIn MmOut LogicArray)) s10).2 = .ok d s' → Deselected c s'.out ∧ s'.out.read = .zero ∧ s'.out.busy = false := by
      intro x hx h
      obtain ⟨_, s11, h11, h⟩ := ok_of_bind h
      have k11 := (hx s10 k10).2
      rw [h11] at k11
      cases h
      exact ⟨k11.1, k11.2, rfl⟩
    by_cases hr : c.hasRdv = true
    · simp only [hr, if_true] at h
      refine hdata _ ?_ h
      refine Keeps.loop _ (fun _ => ?_) ()
      refine Keeps.bind (Keeps.readOnly _) (fun _ => Keeps.bind Keeps.inp (fun i => Keeps.bind (Keeps.ofExcept _) (fun k => ?_)))
      exact Keeps.ite (Keeps.bind Keeps.awaitEdge (fun _ => Keeps.pure _)) (Keeps.pure _)
    · simp only [hr] at h
      exact hdata _ (Keeps.readOnly _) h
  · intro h
    unfold mmWrite at h
    obtain ⟨_, s1, -, h⟩ := ok_of_bind h
    obtain ⟨_, s2, -, h⟩ := ok_of_bind h
    obtain ⟨_, s3, -, h⟩ := ok_of_bind h
    obtain ⟨_, s4, -, h⟩ := ok_of_bind h
    obtain ⟨_, s5, -, h⟩ := ok_of_bind h
    obtain ⟨_, s6, -, h⟩ := ok_of_bind h
    obtain ⟨_, s7, -, h⟩ := ok_of_bind h
    obtain ⟨_, s8, -, h⟩ := ok_of_bind h
    obtain ⟨_, s9, -, h⟩ := ok_of_bind h
    obtain ⟨_, s10, h10, h⟩ := ok_of_bind h
    obtain ⟨_, s11, h11, h⟩ := ok_of_bind h
    obtain ⟨_, s12, h12, h⟩ := ok_of_bind h
    cases h
    have e := write_out _ _ _ _ h12
    rw [write_out _ _ _ _ h11, write_out _ _ _ _ h10] at e
    show Deselected c { s12.out with busy := false } ∧ s12.out.write = .zero ∧ s12.out.writedata = _ ∧ _
    rw [e]
    exact ⟨mmDeselect_deselected c { s9.out with write := .zero }, rfl, rfl, rfl⟩

/-- C44: without a read (write) signal the operation raises AssertionError and does nothing. -/
theorem C44_no_signal (c : MmCfg) (a v : Nat) (sync : Bool) (s : Sim MmIn MmOut) :
    (c.hasRead = false → ∃ m, mmRead c a sync s = ([], .err (.assertion m) s)) ∧
    (c.hasWrite = false → ∃ m, mmWrite c a v s = ([], .err (.assertion m) s)) := by
  constructor
  · intro h
    refine ⟨"write-only", ?_⟩
    unfold mmRead
    rw [h]; rfl
  · intro h
    refine ⟨"read-only", ?_⟩
    unfold mmWrite
    rw [h]; rfl

/-- an 8-bit bus -/
def exMm : MmCfg := { addrW := 4, dataW := 8, beW := some 1, hasCs := true }

/-- its initial state: nothing driven, three stalled cycles, then one accepting -/
def exMmSim : Sim MmIn MmOut :=
  ⟨.mid, mmInit exMm ⟨[], [], [], .x, .x, .x, false⟩, {}, {}, [{ waitrequest := .one }, { waitrequest := .one }, { waitrequest := .zero },
    { readdata := natToBits 8 1 }, { readdatavalid := .one, readdata := natToBits 8 0x5a }]⟩

example : exMmSim.out.busy = false ∧ exMmSim.out.write = .zero ∧ exMmSim.out.read = .zero ∧
    (mmWrite exMm 3 0x77 exMmSim).1.length = 4 ∧ (mmWrite exMm 3 0x77 exMmSim).2.isOk = true ∧
    (mmRead exMm 3 true exMmSim).1.length = 5 ∧
    (match (mmRead exMm 3 true exMmSim).2 with
      | .ok d _ => d
      | _ => []) = natToBits 8 0x5a := by decide +kernel

-- with chip select and byte enables, which are high during the accesses
example : let c := { exMm with hasCs := true, beW := some 2 }
    (match mmRead c 3 true exMmSim, mmWrite c 3 0x77 exMmSim with
      | (t, .ok _ s), (u, .ok _ s') => t.any (fun r => r.1.cs == .one && r.1.byteenable == [.one, .one]) && u.any (fun r => r.1.cs == .one) &&
          s.out.cs == .zero && s'.out.byteenable == [.zero, .zero]
      | _, _ => false) = true := by decide +kernel

/-! ### C79 -/

/-- C79 is false of the code: an address or value that does not fit makes the operation raise OverflowError with the lock still
held ... -/
theorem C79_lock_kept (c : MmCfg) (a v : Nat) (sync : Bool) (s : Sim MmIn MmOut) (hfree : s.out.busy = false) :
    (c.hasRead = true → 2 ^ c.addrW ≤ a → ∀ e s', (mmRead c a sync s).2 = .err e s' → s'.out.busy = true) ∧
    (c.hasRead = true → 2 ^ c.addrW ≤ a → ∀ x s', (mmRead c a sync s).2 ≠ .ok x s') ∧
    (c.hasWrite = true → 2 ^ c.addrW ≤ a ∨ 2 ^ c.dataW ≤ v → ∀ e s', (mmWrite c a v s).2 = .err e s' → s'.out.busy = true) ∧
    (c.hasWrite = true → 2 ^ c.addrW ≤ a ∨ 2 ^ c.dataW ≤ v → ∀ x s', (mmWrite c a v s).2 ≠ .ok x s') := by
  have anyT : ∀ {α β : Type} (x : β → M MmIn MmOut α) (Q E B), ∀ b, Triple (fun _ => False) (fun _ => True) (x b) Q E B :=
    fun x Q E B b => ⟨fun s hs => hs.elim, fun s hs => hs.elim, fun s hs => hs.elim, fun s hs => hs.elim⟩
  have hrd : 2 ^ c.addrW ≤ a → Triple (fun s : Sim MmIn MmOut => s.out.busy = true) (fun _ => True) (mmReadReq c a sync) (fun _ _ => False)
      (fun _ s => s.out.busy = true) (fun _ => True) := by
    intro h
    refine Triple.bind (S := fun _ s => s.out.busy = true) (Triple.when _ (fun _ => Triple.awaitEdge (fun _ _ => trivial) (fun _ _ _ => trivial)
      (fun s i r hs _ => hs)) (fun _ s hs => hs)) fun _ => ?_
    refine Triple.bind (S := fun _ _ => False) ?_ (anyT _ _ _ _)
    unfold writeInt
    rw [if_neg (by omega)]
    exact Triple.raise _ (fun s hs => hs)
  have hwr : 2 ^ c.addrW ≤ a ∨ 2 ^ c.dataW ≤ v → Triple (fun s : Sim MmIn MmOut => s.out.busy = true) (fun _ => True) (mmWriteBody c a v) (fun _ _ => False)
      (fun _ s => s.out.busy = true) (fun _ => True) := by
    intro h
    refine Triple.bind (S := fun _ s => s.out.busy = true ∧ s.phase = .edge) (Triple.awaitEdge (fun _ _ => trivial) (fun _ _ _ => trivial)
      (fun s i r hs _ => ⟨hs, rfl⟩)) fun _ => ?_
    unfold writeInt
    by_cases ha : a < 2 ^ c.addrW
    · rw [if_pos ha, if_neg (by omega)]
      refine Triple.bind (S := fun _ s => s.out.busy = true) (Triple.write _ (fun s hs => by rw [hs.2]; decide) (fun s hs => hs.1)) fun _ => ?_
      exact Triple.bind (S := fun _ _ => False) (Triple.raise _ (fun s hs => hs)) (anyT _ _ _ _)
    · rw [if_neg ha]
      exact Triple.bind (S := fun _ _ => False) (Triple.raise _ (fun s hs => hs.1)) (anyT _ _ _ _)
  have hrd2 : 2 ^ c.addrW ≤ a → Triple (fun s : Sim MmIn MmOut => s.out.busy = true) (fun _ => True) (mmReadReq c a sync >>= fun _ => mmReadData c)
      (fun _ _ => False) (fun _ s => s.out.busy = true) (fun _ => True) := fun h => Triple.bind (hrd h) (anyT _ _ _ _)
  refine ⟨fun hr h => ?_, fun hr h => ?_, fun hw h => ?_, fun hw h => ?_⟩
  · rw [mmRead_eq c a sync hr s hfree]; exact (hrd2 h).err _ rfl
  · rw [mmRead_eq c a sync hr s hfree]; exact fun x s' hx => (hrd2 h).ok _ rfl x s' hx
  · rw [mmWrite_eq c a v hw s hfree]; exact (hwr h).err _ rfl
  · rw [mmWrite_eq c a v hw s hfree]; exact fun x s' hx => (hwr h).ok _ rfl x s' hx

/-- C79 is false of the code for every other reason, too: whatever an operation that has started raises (an X on waitrequest or readdatavalid, an attempt to drive a
signal in the ReadOnly phase), the lock is still held ... -/
theorem C79_every_error (c : MmCfg) (a v : Nat) (sync : Bool) (s s' : Sim MmIn MmOut) (hfree : s.out.busy = false) (e : PyErr) :
    (c.hasRead = true → (mmRead c a sync s).2 = .err e s' → s'.out.busy = true) ∧
    (c.hasWrite = true → (mmWrite c a v s).2 = .err e s' → s'.out.busy = true) := by
  constructor
  · intro hr h
    rw [mmRead_eq c a sync hr s hfree] at h
    have := mmReadBody_lock c a sync { s with out := { s.out with busy := true } } rfl (by rw [h]; rfl)
    rwa [h] at this
  · intro hw h
    rw [mmWrite_eq c a v hw s hfree] at h
    have := mmWriteBody_lock c a v { s with out := { s.out with busy := true } } rfl (by rw [h]; rfl)
    rwa [h] at this

-- an X on readdatavalid, and one on waitrequest
example : (match mmRead exMm 3 true ⟨.mid, exMmSim.out, {}, {}, [{}, {}, { readdatavalid := .x }]⟩,
      mmWrite exMm 3 7 ⟨.mid, exMmSim.out, {}, {}, [{ waitrequest := .x }, {}]⟩ with
    | (_, .err e s), (_, .err e' s') => e == .valueError && e' == .valueError && s.out.busy && s'.out.busy
    | _, _ => false) = true := by decide +kernel

/-- ... and then every later operation of the master waits for ever, on every schedule. -/
theorem C79_stuck (c : MmCfg) (a v : Nat) (sync : Bool) (s : Sim MmIn MmOut) (h : s.out.busy = true) :
    (c.hasRead = true → mmRead c a sync s = ([], .blocked s)) ∧ (c.hasWrite = true → mmWrite c a v s = ([], .blocked s)) := by
  have hacq : ∀ {β : Type} (k : Unit → M MmIn MmOut β), (mmAcquire >>= k) s = ([], .blocked s) := by
    intro β k
    unfold mmAcquire
    rw [bind_assoc_run, bind_getOut, h]
    rfl
  constructor
  · intro hr
    unfold mmRead
    simp only [hr, Bool.not_true, Coro.when, Bool.false_eq_true, if_false, pure_bind]
    exact hacq _
  · intro hw
    unfold mmWrite
    simp only [hw, Bool.not_true, Coro.when, Bool.false_eq_true, if_false, pure_bind]
    exact hacq _

/-- C79 is false of the code: a concrete case. -/
theorem C79_violated : ∃ (c : MmCfg) (s s' : Sim MmIn MmOut) (t : List (MmOut × MmIn)), s.out.busy = false ∧
    mmWrite c 16 0 s = (t, .err .overflowError s') ∧ ∀ a v, mmWrite c a v s' = ([], .blocked s') := by
  refine ⟨exMm, exMmSim, _, _, rfl, rfl, fun a v => ?_⟩
  exact (C79_stuck exMm a v true _ rfl).2 rfl

/-- C79, proved part: an operation that completes leaves the lock free and its request withdrawn, so that the next one can start. Missing:
operations that raise (`C79_every_error`). -/
theorem C79_completed_partial (c : MmCfg) (a v : Nat) (sync : Bool) (s s' : Sim MmIn MmOut) :
    (∀ d, (mmRead c a sync s).2 = .ok d s' → s'.out.read = .zero ∧ s'.out.busy = false) ∧
    ((mmWrite c a v s).2 = .ok () s' → s'.out.write = .zero ∧ s'.out.busy = false) :=
  ⟨fun d h => ⟨((C44_released c a v sync s s').1 d h).2.1, ((C44_released c a v sync s s').1 d h).2.2⟩,
    fun h => ⟨((C44_released c a v sync s s').2 h).2.1, ((C44_released c a v sync s s').2 h).2.2.2⟩⟩

/-! ### C80 -/

/-- C80 is false of the code: after any read that returned, another one with `sync=False` raises (it writes signals in the
ReadOnly phase the first one ended in), and the lock is then held for ever. -/
theorem C80_violated (c : MmCfg) (a a' : Nat) (sync : Bool) (hr : c.hasRead = true) (ha' : a' < 2 ^ c.addrW) (s s' : Sim MmIn MmOut)
    (hfree : s.out.busy = false) (d : LogicArray) (h : (mmRead c a sync s).2 = .ok d s') :
    ∃ s'', mmRead c a' false s' = ([], .err .readOnlyWrite s'') ∧ s''.out.busy = true := by
  rw [mmRead_eq c a sync hr s hfree] at h
  have key : Triple (fun _ : Sim MmIn MmOut => True) (fun _ => True) (mmReadReq c a sync >>= fun _ => mmReadData c)
      (fun _ s => s.phase = .ro ∧ s.out.busy = false) (fun _ _ => True) (fun _ => True) := by
    have htriv : ∀ {α : Type} (x : M MmIn MmOut α), Triple (fun _ => True) (fun _ => True) x (fun _ _ => True) (fun _ _ => True) (fun _ => True) :=
      fun x => ⟨fun _ _ _ _ => trivial, fun _ _ _ _ _ => trivial, fun _ _ _ _ _ => trivial, fun _ _ _ _ => trivial⟩
    refine Triple.bind (htriv _) fun _ => ?_
    unfold mmReadData
    refine Triple.bind (S := fun _ s => s.phase = .ro) ?_ fun _ => ?_
    · have hro : Triple (fun _ : Sim MmIn MmOut => True) (fun _ => True) (readOnly : M MmIn MmOut Unit) (fun _ s => s.phase = .ro) (fun _ _ => True) (fun _ => True) := by
        refine ⟨fun _ _ _ _ => trivial, fun s _ a s' h => ?_, fun _ _ _ _ _ => trivial, fun _ _ _ _ => trivial⟩
        unfold readOnly at h
        split at h <;> cases h
        rfl
      cases hrd : c.hasRdv with
      | false => exact hro
      | true =>
        refine Triple.loop (Inv := fun _ _ => True) _ (fun _ => ?_) (fun _ _ _ => trivial) ()
        unfold rdvBody
        refine Triple.bind hro fun _ => Triple.bind (S := fun _ s => s.phase = .ro) (Triple.inp (fun s hs => hs)) fun i => ?_
        refine Triple.bind (S := fun _ s => s.phase = .ro) (Triple.ofExcept _ (fun _ s _ hs => hs) (fun _ _ _ _ => trivial)) fun n => ?_
        refine Triple.ite (fun _ => ?_) (fun _ => Triple.pure _ (fun s hs => hs))
        exact Triple.bind (S := fun _ _ => True) (Triple.awaitEdge (fun _ _ => trivial) (fun _ _ _ => trivial) (fun _ _ _ _ _ => trivial)) fun _ =>
          Triple.pure _ (fun _ _ => trivial)
    · refine Triple.bind (S := fun _ s => s.phase = .ro) (Triple.inp (fun s hs => hs)) fun i => ?_
      refine ⟨fun _ _ _ _ => trivial, fun s hs a s' h => ?_, fun _ _ _ _ _ => trivial, fun _ _ _ _ => trivial⟩
      cases h
      exact ⟨hs, rfl⟩
  obtain ⟨h1, h2⟩ := key.ok _ trivial d s' h
  rw [mmRead_eq c a' false hr s' h2]
  refine ⟨{ s' with out := { s'.out with busy := true } }, ?_, rfl⟩
  unfold mmReadReq
  simp only [Coro.when, Bool.false_eq_true, if_false, pure_bind]
  rw [bind_run, bind_run, writeInt, if_pos ha', write_ro _ _ (by exact h1)]
  rfl

/-- the hypothesis of `C80_violated` is met -/
example : (mmRead exMm 3 true exMmSim).2.isOk = true := by decide +kernel

/-- C80, proved part: with `sync=True` (the default) a read may follow a read at once. Missing: `sync=False` (`C80_violated`). -/
theorem C80_sync_partial (c : MmCfg) (a : Nat) (hr : c.hasRead = true) (ha : a < 2 ^ c.addrW) (s : Sim MmIn MmOut)
    (hfree : s.out.busy = false) (h0 : s.out.read = .zero) (hres : ∀ i ∈ s.cur :: s.rest, Defined i.waitrequest ∧ Defined i.readdatavalid) :
    ∀ e s', (mmRead c a true s).2 ≠ .err e s' := by
  obtain ⟨t1, t2, acc, -, -, -, -, h, -⟩ := C44_read c a true hr ha s hfree h0 (.inl rfl) hres
  exact h

end CocotbBus
