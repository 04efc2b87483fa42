import Verif.Proof.AvalonMM
import Verif.Proof.AvalonMemory
import Verif.Spec.MmUse

/-! # A master and a memory on one bus -/

namespace CocotbBus
open Spec Coro

/-! ### what the memory sees of the master, whatever the master sees -/

theorem Triple.waitN {I O : Type} {G : O → Prop} (f : I → Logic) :
    Triple (fun s : Sim I O => s.phase ≠ .ro ∧ G s.out) (fun q => G q.1) (Coro.waitN f) (fun _ s => s.phase = .mid ∧ G s.out) (fun _ s => G s.out)
      (fun s => G s.out) := by
  refine ⟨fun s hs => ?_, fun s hs => ?_, fun s hs => ?_, fun s hs => ?_⟩ <;>
  · obtain ⟨ws, h1, -, h3⟩ := waitN_run f s hs.1
    first
    | (intro r hr; rw [h1] at hr; obtain ⟨i, -, rfl⟩ := List.mem_map.1 hr; exact hs.2)
    | (intro a s' h
       rw [h] at h3
       rcases h3 with ⟨s2, e, h4, h5, -⟩ | ⟨s2, e, h4, h5, -⟩ | ⟨s2, e, h4, h5, -⟩ <;> cases e
       first
       | exact ⟨h5, by rw [h4]; exact hs.2⟩
       | (rw [h4]; exact hs.2))
    | (intro s' h
       rw [h] at h3
       rcases h3 with ⟨s2, e, h4, h5, -⟩ | ⟨s2, e, h4, h5, -⟩ | ⟨s2, e, h4, h5, -⟩ <;> cases e
       rw [h4]; exact hs.2)

/-- nothing is requested -/
def Quiet (c : MmCfg) (o : MmOut) : Prop :=
  (c.hasRead = true → o.read = .zero) ∧ (c.hasWrite = true → o.write = .zero) ∧ (∀ w, c.beW = some w → isResolvable o.byteenable = true)

/-- what is requested is well defined -/
def Safe (c : MmCfg) (o : MmOut) : Prop :=
  (c.hasRead = true → o.read = .one → isResolvable o.address = true) ∧
  (c.hasWrite = true → o.write = .one → isResolvable o.address = true ∧ isResolvable o.writedata = true ∧ o.writedata.length = c.dataW) ∧
  (∀ w, c.beW = some w → isResolvable o.byteenable = true)

theorem Quiet.safe {c : MmCfg} {o : MmOut} (h : Quiet c o) : Safe c o :=
  ⟨fun hr h1 => (by rw [h.1 hr] at h1; cases h1), fun hw h1 => (by rw [h.2.1 hw] at h1; cases h1), h.2.2⟩

theorem Safe.clean {c : MmCfg} {m : MemCfg} (hb : OneBus c m) {o : MmOut} (h : Safe c o) : MemClean m (memSees o) := by
  constructor
  · intro hr
    simp only [memReads, memSees, hb.readdata, Bool.and_eq_true, beq_iff_eq] at hr
    exact h.1 hr.1 hr.2
  · intro hw
    simp only [memWrites, memSees, hb.writedata, Bool.and_eq_true, beq_iff_eq] at hw
    obtain ⟨h1, h2, h3⟩ := h.2.1 hw.1 hw.2
    refine ⟨h1, h2, by rw [← hb.width]; exact h3, fun hbe => ?_⟩
    rw [hb.be.1] at hbe
    obtain ⟨w, hw⟩ := Option.isSome_iff_exists.1 hbe
    exact h.2.2 w hw

theorem isResolvable_ones (w : Nat) : isResolvable (List.replicate w .one) = true := by
  simp [isResolvable, Logic.isResolvable]

theorem select_be (c : MmCfg) (o : MmOut) (w : Nat) (h : c.beW = some w) : (mmSelect c o).byteenable = List.replicate w .one := by simp [mmSelect, h]

theorem deselect_quiet (c : MmCfg) (o : MmOut) (h1 : c.hasRead = true → o.read = .zero) (h2 : c.hasWrite = true → o.write = .zero) : Quiet c (mmDeselect c o) :=
  ⟨h1, h2, fun w hw => by simp [mmDeselect, hw]⟩

abbrev SafeT (c : MmCfg) {α : Type} (P : Sim MmIn MmOut → Prop) (x : M MmIn MmOut α) (Q : α → Sim MmIn MmOut → Prop) : Prop :=
  Triple P (fun q => Safe c q.1) x Q (fun _ s => Safe c s.out) (fun s => Safe c s.out)

theorem writeInt_safe (c : MmCfg) {P : Sim MmIn MmOut → Prop} {Q : Unit → Sim MmIn MmOut → Prop} (w n : Nat) (f : LogicArray → MmOut → MmOut)
    (hP : ∀ s, P s → s.phase ≠ .ro ∧ Safe c s.out) (hQ : ∀ s, P s → Q () { s with out := f (natToBits w n) s.out }) :
    SafeT c P (writeInt w n f) Q :=
  Triple.ite (fun _ => Triple.write _ (fun s hs => (hP s hs).1) hQ) (fun _ => Triple.raise _ (fun s hs => (hP s hs).2))

theorem setPy_triple {I O : Type} {P : Sim I O → Prop} {R : O × I → Prop} {E : PyErr → Sim I O → Prop} {B : Sim I O → Prop} {Q : Unit → Sim I O → Prop}
    (f : O → O) (hQ : ∀ s, P s → Q () { s with out := f s.out }) : Triple P R (setPy f : M I O Unit) Q E B :=
  ⟨fun s hs => by simp [setPy], fun s hs a s' h => by cases h; exact hQ s hs, fun s hs e s' h => (by cases h), fun s hs s' h => (by cases h)⟩

/-- the request part of both operations: `read`/`write` have been set in `o`, then select, wait, edge -/
theorem request_safe (c : MmCfg) {P : Sim MmIn MmOut → Prop} (hP : ∀ s, P s → s.phase ≠ .ro ∧ Safe c (mmSelect c s.out))
    (G : MmOut → Prop) (hG : ∀ s, P s → G (mmSelect c s.out)) :
    SafeT c P (do
      write (mmSelect c)
      when c.hasWait (waitN (fun i => i.waitrequest))
      awaitEdge) (fun _ s => s.phase ≠ .ro ∧ Safe c s.out ∧ G s.out) := by
  refine Triple.bind (S := fun _ s => s.phase ≠ .ro ∧ Safe c s.out ∧ G s.out) (Triple.write _ (fun s hs => (hP s hs).1)
    (fun s hs => ⟨(hP s hs).1, (hP s hs).2, hG s hs⟩)) fun _ => ?_
  refine Triple.bind (S := fun _ s => s.phase ≠ .ro ∧ Safe c s.out ∧ G s.out) ?_ fun _ => ?_
  · refine Triple.when _ (fun _ => ?_) (fun _ s hs => hs)
    have := Triple.waitN (G := fun o => Safe c o ∧ G o) (fun i : MmIn => i.waitrequest)
    exact ⟨fun s hs r hr => (this.records s hs r hr).1, fun s hs a s' h => by
      obtain ⟨h1, h2⟩ := this.ok s hs a s' h; exact ⟨by rw [h1]; decide, h2⟩, fun s hs e s' h => (this.err s hs e s' h).1,
      fun s hs s' h => (this.blocked s hs s' h).1⟩
  · exact Triple.awaitEdge (fun s hs => hs.2.1) (fun s hs _ => hs.2.1) (fun s i r hs _ => ⟨by simp, hs.2⟩)

theorem mmWriteBody_safe (c : MmCfg) (a v : Nat) :
    SafeT c (fun s => Quiet c s.out) (mmWriteBody c a v) (fun _ s => Quiet c s.out) := by
  have hassoc : mmWriteBody c a v = (do
      awaitEdge
      writeInt c.addrW a (fun v o => { o with address := v })
      writeInt c.dataW v (fun v o => { o with writedata := v })
      write (fun o => { o with write := .one })
      (do
        write (mmSelect c)
        when c.hasWait (waitN (fun i => i.waitrequest))
        awaitEdge)
      write (fun o => { o with write := .zero })
      write (mmDeselect c)
      write (fun o => { o with writedata := List.replicate c.dataW .x })
      mmRelease) := by
    unfold mmWriteBody
    simp only [bind_assoc]
  rw [hassoc]
  refine Triple.bind (S := fun _ s => s.phase ≠ .ro ∧ Quiet c s.out) (Triple.awaitEdge (fun s hs => hs.safe) (fun s hs _ => hs.safe)
    (fun s i r hs _ => ⟨by simp, hs⟩)) fun _ => ?_
  refine Triple.bind (S := fun _ s => s.phase ≠ .ro ∧ Quiet c s.out ∧ isResolvable s.out.address = true)
    (writeInt_safe c _ _ _ (fun s hs => ⟨hs.1, hs.2.safe⟩) (fun s hs => ⟨hs.1, hs.2, by simp⟩)) fun _ => ?_
  refine Triple.bind (S := fun _ s => s.phase ≠ .ro ∧ Quiet c s.out ∧ isResolvable s.out.address = true ∧ isResolvable s.out.writedata = true ∧
      s.out.writedata.length = c.dataW)
    (writeInt_safe c _ _ _ (fun s hs => ⟨hs.1, hs.2.1.safe⟩) (fun s hs => ⟨hs.1, hs.2.1, hs.2.2, by simp⟩)) fun _ => ?_
  refine Triple.bind (S := fun _ s => s.phase ≠ .ro ∧ Safe c (mmSelect c s.out) ∧ (c.hasRead = true → s.out.read = .zero))
    (Triple.write _ (fun s hs => hs.1) (fun s hs => ⟨hs.1, ⟨?_, ?_, ?_⟩, hs.2.1.1⟩)) fun _ => ?_
  · intro hr h1
    have : s.out.read = .one := h1
    rw [hs.2.1.1 hr] at this
    cases this
  · intro _ _
    exact hs.2.2
  · intro w hw
    rw [select_be c _ w hw]
    exact isResolvable_ones w
  refine Triple.bind (request_safe c (fun s hs => ⟨hs.1, hs.2.1⟩) (fun o => c.hasRead = true → o.read = .zero) (fun s hs => hs.2.2)) fun _ => ?_
  refine Triple.bind (S := fun _ s => s.phase ≠ .ro ∧ (c.hasRead = true → s.out.read = .zero) ∧ s.out.write = .zero)
    (Triple.write _ (fun s hs => hs.1) (fun s hs => ⟨hs.1, hs.2.2, rfl⟩)) fun _ => ?_
  refine Triple.bind (S := fun _ s => s.phase ≠ .ro ∧ Quiet c s.out)
    (Triple.write _ (fun s hs => hs.1) (fun s hs => ⟨hs.1, deselect_quiet c _ hs.2.1 (fun _ => hs.2.2)⟩)) fun _ => ?_
  refine Triple.bind (S := fun _ s => Quiet c s.out) (Triple.write _ (fun s hs => hs.1) (fun s hs => hs.2)) fun _ => ?_
  exact setPy_triple _ (fun s hs => hs)

theorem mmReadReq_safe (c : MmCfg) (a : Nat) :
    SafeT c (fun s => Quiet c s.out) (mmReadReq c a true) (fun _ s => s.phase ≠ .ro ∧ Quiet c s.out) := by
  have hassoc : mmReadReq c a true = (do
      awaitEdge
      writeInt c.addrW a (fun v o => { o with address := v })
      write (fun o => { o with read := .one })
      (do
        write (mmSelect c)
        when c.hasWait (waitN (fun i => i.waitrequest))
        awaitEdge)
      write (fun o => { o with read := .zero })
      write (mmDeselect c)) := by
    unfold mmReadReq
    simp only [bind_assoc]
    rfl
  rw [hassoc]
  refine Triple.bind (S := fun _ s => s.phase ≠ .ro ∧ Quiet c s.out) (Triple.awaitEdge (fun s hs => hs.safe) (fun s hs _ => hs.safe)
    (fun s i r hs _ => ⟨by simp, hs⟩)) fun _ => ?_
  refine Triple.bind (S := fun _ s => s.phase ≠ .ro ∧ Quiet c s.out ∧ isResolvable s.out.address = true)
    (writeInt_safe c _ _ _ (fun s hs => ⟨hs.1, hs.2.safe⟩) (fun s hs => ⟨hs.1, hs.2, by simp⟩)) fun _ => ?_
  refine Triple.bind (S := fun _ s => s.phase ≠ .ro ∧ Safe c (mmSelect c s.out) ∧ (c.hasWrite = true → s.out.write = .zero))
    (Triple.write _ (fun s hs => hs.1) (fun s hs => ⟨hs.1, ⟨?_, ?_, ?_⟩, hs.2.1.2.1⟩)) fun _ => ?_
  · intro _ _
    exact hs.2.2
  · intro hr h1
    have : s.out.write = .one := h1
    rw [hs.2.1.2.1 hr] at this
    cases this
  · intro w hw
    rw [select_be c _ w hw]
    exact isResolvable_ones w
  refine Triple.bind (request_safe c (fun s hs => ⟨hs.1, hs.2.1⟩) (fun o => c.hasWrite = true → o.write = .zero) (fun s hs => hs.2.2)) fun _ => ?_
  refine Triple.bind (S := fun _ s => s.phase ≠ .ro ∧ (c.hasWrite = true → s.out.write = .zero) ∧ s.out.read = .zero)
    (Triple.write _ (fun s hs => hs.1) (fun s hs => ⟨hs.1, hs.2.2, rfl⟩)) fun _ => ?_
  exact Triple.write _ (fun s hs => hs.1) (fun s hs => ⟨hs.1, deselect_quiet c _ (fun _ => hs.2.2) hs.2.1⟩)

theorem mmReadData_safe (c : MmCfg) :
    SafeT c (fun s => s.phase ≠ .ro ∧ Quiet c s.out) (mmReadData c) (fun _ s => Quiet c s.out) := by
  unfold mmReadData
  refine Triple.bind (S := fun _ s => Quiet c s.out) ?_ fun _ => ?_
  · cases c.hasRdv with
    | false => exact Triple.readOnly (fun s hs => hs.1) (fun s hs => hs.2) true
    | true =>
      refine Triple.loop (Inv := fun _ s => s.phase ≠ .ro ∧ Quiet c s.out) _ (fun _ => ?_) (fun _ s hs => hs.2.safe) ()
      unfold rdvBody
      refine Triple.bind (S := fun _ s => Quiet c s.out) (Triple.readOnly (fun s hs => hs.1) (fun s hs => hs.2) true) fun _ => ?_
      refine Triple.bind (S := fun _ s => Quiet c s.out) (Triple.inp (fun s hs => hs)) fun i => ?_
      refine Triple.bind (S := fun _ s => Quiet c s.out) (Triple.ofExcept _ (fun _ s _ hs => hs) (fun _ s _ hs => hs.safe)) fun n => ?_
      refine Triple.ite (fun _ => ?_) (fun _ => Triple.pure _ (fun s hs => hs))
      refine Triple.bind (S := fun _ s => s.phase ≠ .ro ∧ Quiet c s.out) (Triple.awaitEdge (fun s hs => hs.safe) (fun s hs _ => hs.safe)
        (fun s i r hs _ => ⟨by simp, hs⟩)) fun _ => ?_
      exact Triple.pure _ (fun s hs => hs)
  · refine Triple.bind (S := fun _ s => Quiet c s.out) (Triple.inp (fun s hs => hs)) fun i => ?_
    exact Triple.bind (S := fun _ s => Quiet c s.out) (setPy_triple _ (fun s hs => hs)) fun _ => Triple.pure _ (fun s hs => hs)

theorem mmAcquire_safe (c : MmCfg) : SafeT c (fun s => Quiet c s.out) mmAcquire (fun _ s => Quiet c s.out) := by
  unfold mmAcquire
  refine Triple.bind (S := fun _ s => Quiet c s.out) ⟨fun s hs => by simp [getOut], fun s hs a s' h => by cases h; exact hs, fun s hs e s' h => (by cases h),
    fun s hs s' h => (by cases h)⟩ fun o => ?_
  cases o.busy with
  | false =>
    simp only [Bool.false_eq_true, if_false]
    exact setPy_triple _ (fun s hs => hs)
  | true =>
    simp only [if_true]
    refine Triple.bind (S := fun _ s => Quiet c s.out) ?_ fun _ => setPy_triple _ (fun s hs => hs)
    exact ⟨fun s hs => by simp [hang], fun s hs a s' h => (by cases h), fun s hs e s' h => (by cases h), fun s hs s' h => by cases h; exact hs.safe⟩

theorem mmStep_safe (c : MmCfg) (op : MmOp) : SafeT c (fun s => Quiet c s.out) (mmStep c op) (fun _ s => Quiet c s.out) := by
  cases op with
  | write a v =>
    refine Triple.bind (S := fun _ s => Quiet c s.out) ?_ fun _ => Triple.pure _ (fun s hs => hs)
    refine Triple.bind (S := fun _ s => Quiet c s.out) (Triple.when _ (fun _ => Triple.raise _ (fun s hs => hs.safe)) (fun _ s hs => hs)) fun _ => ?_
    exact Triple.bind (mmAcquire_safe c) fun _ => mmWriteBody_safe c a v
  | read a =>
    refine Triple.bind (S := fun _ s => Quiet c s.out) ?_ fun _ => Triple.pure _ (fun s hs => hs)
    refine Triple.bind (S := fun _ s => Quiet c s.out) (Triple.when _ (fun _ => Triple.raise _ (fun s hs => hs.safe)) (fun _ s hs => hs)) fun _ => ?_
    refine Triple.bind (mmAcquire_safe c) fun _ => ?_
    have := Triple.bind (mmReadReq_safe c a) fun _ => mmReadData_safe c
    unfold mmReadReq mmReadData at this
    simp only [bind_assoc] at this
    cases hr : c.hasRdv <;> rw [hr] at this <;> exact this
  | pause n =>
    refine Triple.bind (S := fun _ s => Quiet c s.out) ?_ fun _ => Triple.pure _ (fun s hs => hs)
    exact Triple.edges (Inv := fun s => Quiet c s.out) (fun s hs => hs.safe) (fun s hs => hs.safe) (fun s i r hs _ => hs) n

theorem mmUse_safe (c : MmCfg) (ops : List MmOp) : ∀ s : Sim MmIn MmOut, Quiet c s.out →
    (∀ q ∈ (mmUse c ops s).2.1, Safe c q.1) ∧ Safe c (mmUse c ops s).2.2.sim.out := by
  induction ops with
  | nil => intro s hs; exact ⟨by simp [mmUse], hs.safe⟩
  | cons op ops ih =>
    intro s hs
    have h := mmStep_safe c op
    have h1 := h.records s hs
    have h2 := h.ok s hs
    have h3 := h.err s hs
    have h4 := h.blocked s hs
    unfold mmUse
    cases hr : mmStep c op s with
    | mk t e =>
      rw [hr] at h1 h2 h3 h4
      cases e with
      | ok d s' =>
        obtain ⟨i1, i2⟩ := ih s' (h2 d s' rfl)
        refine ⟨fun q hq => ?_, i2⟩
        rcases List.mem_append.1 hq with hq | hq
        · exact h1 q hq
        · exact i1 q hq
      | err e s' => exact ⟨h1, h3 e s' rfl⟩
      | blocked s' => exact ⟨h1, h4 s' rfl⟩

theorem drivenIn_safe (c : MmCfg) (ops : List MmOp) (s : Sim MmIn MmOut) (hs : Quiet c s.out) (n : Nat) : Safe c (drivenIn (mmUse c ops s).2 n) := by
  obtain ⟨h1, h2⟩ := mmUse_safe c ops s hs
  unfold drivenIn
  cases h : (mmUse c ops s).2.1[n]? with
  | none => exact h2
  | some q => exact h1 q (List.mem_of_getElem? h)

/-- the master is free -/
def MmReady (c : MmCfg) (o : MmOut) : Prop := Quiet c o ∧ o.busy = false

/-! ### the operations when there is no waitrequest -/

theorem waitN_zero {I O : Type} (f : I → Logic) (s : Sim I O) (hs : s.phase ≠ .ro) (h : f s.cur = .zero) :
    (Coro.waitN f : M I O Unit) s = ([], .ok () { s with phase := .mid }) := by
  have hunf : (Coro.waitN f : M I O Unit) s = (iter (waitNBody f) (s.rest.length + 1) () >>= fun _ => nextStep) { s with phase := .ro } := by
    unfold Coro.waitN
    rw [bind_readOnly _ _ _ hs]
    rfl
  rw [hunf, bind_run, iter, bind_run, waitNBody_zero f { s with phase := .ro } rfl h]
  rfl

/-- wait (for nothing), then the edge -/
theorem waitEdge_run (c : MmCfg) {β : Type} (k : Unit → M MmIn MmOut β) (s : Sim MmIn MmOut) (hs : s.phase ≠ .ro)
    (h : c.hasWait = true → s.cur.waitrequest = .zero) :
    (Coro.when c.hasWait (Coro.waitN (fun i => i.waitrequest)) >>= fun _ => awaitEdge >>= k) s =
      match s.rest with
      | [] => ([], .blocked (if c.hasWait then { s with phase := .mid } else s))
      | i :: r => ((s.out, s.cur) :: (k () ⟨.edge, s.out, s.cur, i, r⟩).1, (k () ⟨.edge, s.out, s.cur, i, r⟩).2) := by
  obtain ⟨ph, out, prev, cur, rest⟩ := s
  cases hw : c.hasWait with
  | false =>
    simp only [Coro.when, Bool.false_eq_true, if_false, pure_bind]
    cases rest with
    | nil => rw [bind_awaitEdge_nil _ _ rfl]
    | cons i r => rw [bind_awaitEdge_cons _ _ i r rfl]
  | true =>
    simp only [Coro.when, if_true]
    rw [bind_silent _ _ _ _ _ (waitN_zero _ _ hs (h hw))]
    cases rest with
    | nil => rw [bind_awaitEdge_nil _ _ rfl]
    | cons i r => rw [bind_awaitEdge_cons _ _ i r rfl]

def wrReq (c : MmCfg) (a v : Nat) (o : MmOut) : MmOut :=
  mmSelect c { o with address := natToBits c.addrW a, writedata := natToBits c.dataW v, write := .one, busy := true }

def wrDone (c : MmCfg) (a v : Nat) (o : MmOut) : MmOut :=
  { mmDeselect c { wrReq c a v o with write := .zero } with writedata := List.replicate c.dataW .x, busy := false }

theorem mmWrite_run (c : MmCfg) (a v : Nat) (hw : c.hasWrite = true) (ha : a < 2 ^ c.addrW) (hv : v < 2 ^ c.dataW) (s : Sim MmIn MmOut)
    (hf : s.out.busy = false) (hwait : c.hasWait = true → ∀ i ∈ s.rest, i.waitrequest = .zero) :
    (∃ s', mmWrite c a v s = ([], .blocked s') ∧ s.rest = []) ∨
    (∃ t s', mmWrite c a v s = (t, .blocked s') ∧ s.rest.length = 1) ∨
    (∃ i j r, s.rest = i :: j :: r ∧ mmWrite c a v s =
      ([({ s.out with busy := true }, s.cur), (wrReq c a v s.out, i)], .ok () ⟨.edge, wrDone c a v s.out, i, j, r⟩)) := by
  rw [mmWrite_eq c a v hw s hf]
  unfold mmWriteBody
  obtain ⟨ph, out, prev, cur, rest⟩ := s
  match rest with
  | [] => exact .inl ⟨_, by rw [bind_awaitEdge_nil _ _ rfl], rfl⟩
  | i :: l =>
    right
    rw [bind_awaitEdge_cons _ _ i l rfl]
    rw [bind_writeInt _ _ _ ha _ _ (by simp), bind_writeInt _ _ _ hv _ _ (by simp), bind_write _ _ _ (by simp), bind_write _ _ _ (by simp)]
    rw [waitEdge_run c _ _ (by simp) (fun h => hwait h i (by simp))]
    match l with
    | [] => exact .inl ⟨_, _, rfl, rfl⟩
    | j :: r =>
      right
      refine ⟨i, j, r, rfl, ?_⟩
      simp only
      rw [bind_write _ _ _ (by simp), bind_write _ _ _ (by simp), bind_write _ _ _ (by simp)]
      rfl

def rdReq (c : MmCfg) (a : Nat) (o : MmOut) : MmOut := mmSelect c { o with address := natToBits c.addrW a, read := .one, busy := true }

def rdWait (c : MmCfg) (a : Nat) (o : MmOut) : MmOut := mmDeselect c { rdReq c a o with read := .zero }

theorem mmRead_run (c : MmCfg) (a : Nat) (hw : c.hasRead = true) (ha : a < 2 ^ c.addrW) (s : Sim MmIn MmOut)
    (hf : s.out.busy = false) (hwait : c.hasWait = true → ∀ i ∈ s.rest, i.waitrequest = .zero) :
    (∃ t s', mmRead c a true s = (t, .blocked s') ∧ s.rest.length ≤ 1) ∨
    (∃ i j r, s.rest = i :: j :: r ∧ mmRead c a true s =
      Res.andThen ([({ s.out with busy := true }, s.cur), (rdReq c a s.out, i)], .ok () ⟨.edge, rdWait c a s.out, i, j, r⟩) (fun _ => mmReadData c)) := by
  rw [mmRead_eq c a true hw s hf, bind_run]
  obtain ⟨ph, out, prev, cur, rest⟩ := s
  have key : (∃ t s', mmReadReq c a true ⟨ph, { out with busy := true }, prev, cur, rest⟩ = (t, .blocked s') ∧ rest.length ≤ 1) ∨
      (∃ i j r, rest = i :: j :: r ∧ mmReadReq c a true ⟨ph, { out with busy := true }, prev, cur, rest⟩ =
        ([({ out with busy := true }, cur), (rdReq c a out, i)], .ok () ⟨.edge, rdWait c a out, i, j, r⟩)) := by
    have hun : mmReadReq c a true = (do
        awaitEdge
        writeInt c.addrW a (fun v o => { o with address := v })
        write (fun o => { o with read := .one })
        write (mmSelect c)
        Coro.when c.hasWait (Coro.waitN (fun i => i.waitrequest))
        awaitEdge
        write (fun o => { o with read := .zero })
        write (mmDeselect c)) := rfl
    rw [hun]
    match rest with
    | [] => exact .inl ⟨_, _, by rw [bind_awaitEdge_nil _ _ rfl], by simp⟩
    | i :: l =>
      rw [bind_awaitEdge_cons _ _ i l rfl]
      rw [bind_writeInt _ _ _ ha _ _ (by simp), bind_write _ _ _ (by simp), bind_write _ _ _ (by simp)]
      rw [waitEdge_run c _ _ (by simp) (fun h => hwait h i (by simp))]
      match l with
      | [] => exact .inl ⟨_, _, rfl, by simp⟩
      | j :: r =>
        right
        refine ⟨i, j, r, rfl, ?_⟩
        simp only
        rw [bind_write _ _ _ (by simp), write_ok _ _ (by simp)]
        rfl
  rcases key with ⟨t, s', h1, h2⟩ | ⟨i, j, r, h1, h2⟩
  · rw [h1]; exact .inl ⟨t, s', rfl, h2⟩
  · rw [h2]; exact .inr ⟨i, j, r, h1, rfl⟩

/-! ### the memory -/

theorem Quiet.idle {c : MmCfg} {m : MemCfg} (hb : OneBus c m) {o : MmOut} (h : Quiet c o) :
    memReads m (memSees o) = false ∧ memWrites m (memSees o) = false := by
  simp only [memReads, memWrites, memSees, hb.readdata, hb.writedata]
  constructor
  · cases hr : c.hasRead with
    | false => rfl
    | true => rw [h.1 hr]; rfl
  · cases hr : c.hasWrite with
    | false => rfl
    | true => rw [h.2.1 hr]; rfl

theorem memTick_idle (m : MemCfg) (rand : Nat → Nat) (o : MemOut) (i : MemIn) (h : memReads m i = false ∧ memWrites m i = false) :
    memTick m rand o i = memPop m o := by
  simp [memTick, memServeRead, memServeWrite, h.1, h.2]

theorem memPop_rest (m : MemCfg) (o : MemOut) : (memPop m o).mem = o.mem ∧ (memPop m o).responses = o.responses.tail ∧
    (memPop m o).waitrequest = o.waitrequest ∧ (memPop m o).drawn = o.drawn := by
  unfold memPop
  split <;> simp

theorem memTick_wait (m : MemCfg) (rand : Nat → Nat) (o : MemOut) (i : MemIn) : (memTick m rand o i).waitrequest = o.waitrequest := by
  unfold memTick memServeWrite memServeRead
  split <;> split <;> exact (memPop_rest m o).2.2.1

theorem memTick_pins (m : MemCfg) (rand : Nat → Nat) (o : MemOut) (i : MemIn) :
    (memTick m rand o i).readdata = (memPop m o).readdata ∧ (memTick m rand o i).readdatavalid = (memPop m o).readdatavalid := by
  unfold memTick memServeWrite memServeRead
  split <;> split <;> exact ⟨rfl, rfl⟩

theorem memMerge_all (m : MemCfg) (hbytes : m.width = 8 * (m.width / 8)) (data be old : Nat) (hd : data < 2 ^ m.width)
    (hbe : ∀ j < m.width / 8, be.testBit j = true) : memMerge m data be old = data := by
  unfold memMerge
  apply Nat.eq_of_testBit_eq
  intro p
  obtain ⟨h1, h2⟩ := memMasks_testBit be (m.width / 8) 0 0 0 p
  rw [Nat.testBit_or, Nat.testBit_and, Nat.testBit_and, h1, h2]
  by_cases hp : p < m.width
  · rw [show decide (8 * 0 ≤ p ∧ p < 8 * (0 + m.width / 8)) = true by rw [decide_eq_true_eq]; omega, hbe (p / 8) (by omega)]
    simp
  · rw [Nat.testBit_lt_two_pow (Nat.lt_of_lt_of_le hd (Nat.pow_le_pow_right (by omega) (by omega)))]
    rw [show decide (8 * 0 ≤ p ∧ p < 8 * (0 + m.width / 8)) = false by rw [decide_eq_false_iff_not]; omega]
    simp

theorem bitsToNat_ones (w : Nat) : bitsToNat (List.replicate w .one) = 2 ^ w - 1 := by
  induction w with
  | zero => rfl
  | succ n ih =>
    rw [List.replicate_succ', bitsToNat_append, ih, bitsToNat_singleton]
    have := Nat.two_pow_pos n
    simp only [List.length_singleton, Logic.toNat, Nat.pow_succ]
    omega

end CocotbBus
