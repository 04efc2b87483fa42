import Verif.Model.Len
import Verif.Proof.Cancel
import Verif.Proof.AxiProps

namespace CocotbBus

open Coro Spec

variable {I O α β : Type}

/-- `x` never ends with the exception `e` -/
def NoErr (e : PyErr) (x : M I O α) : Prop := ∀ s s', (x s).2 ≠ .err e s'

section
variable {e : PyErr}

theorem NoErr.pure (a : α) : NoErr e (pure a : M I O α) := fun s s' h => by simp [pure_run] at h
theorem NoErr.raise {e' : PyErr} (h : e' ≠ e) : NoErr e (raise e' : M I O α) := fun s s' he => by
  simp only [Coro.raise] at he; cases he; exact h rfl
theorem NoErr.inp : NoErr e (inp : M I O I) := fun s s' h => by simp [Coro.inp] at h
theorem NoErr.getOut : NoErr e (getOut : M I O O) := fun s s' h => by simp [Coro.getOut] at h
theorem NoErr.setPy (f : O → O) : NoErr e (setPy f : M I O Unit) := fun s s' h => by simp [Coro.setPy] at h
theorem NoErr.hang : NoErr e (hang : M I O α) := fun s s' h => by simp [Coro.hang] at h
theorem NoErr.nextStep : NoErr e (nextStep : M I O Unit) := fun s s' h => by simp [Coro.nextStep] at h
theorem NoErr.readOnly (b : Bool) (he : e ≠ .readOnlyAwait) : NoErr e (readOnly b : M I O Unit) := fun s s' h => by
  unfold Coro.readOnly at h; split at h
  · cases h; exact he rfl
  · cases h
theorem NoErr.write (f : O → O) (he : e ≠ .readOnlyWrite) : NoErr e (write f : M I O Unit) := fun s s' h => by
  unfold Coro.write at h; split at h
  · cases h; exact he rfl
  · cases h
theorem NoErr.ofExcept {x : Except PyErr α} (hx : x ≠ .error e) : NoErr e (ofExcept x : M I O α) := fun s s' h => by
  unfold Coro.ofExcept at h; cases x with
  | ok a => cases h
  | error e' => cases h; exact hx rfl
theorem NoErr.awaitEdge : NoErr e (awaitEdge : M I O Unit) := fun s s' h => by
  cases hr : s.rest with
  | nil => rw [awaitEdge_nil s hr] at h; cases h
  | cons i r => rw [awaitEdge_cons s i r hr] at h; cases h

theorem NoErr.bind {x : M I O α} {f : α → M I O β} (hx : NoErr e x) (hf : ∀ a, NoErr e (f a)) : NoErr e (x >>= f) := by
  intro s s' h
  rw [bind_run] at h
  cases hr : x s with
  | mk t r =>
    rw [hr] at h
    cases r with
    | ok a s1 => rw [andThen_ok] at h; exact hf a s1 s' h
    | err e1 s1 => rw [andThen_err] at h; cases h; exact hx s _ (by rw [hr])
    | blocked s1 => rw [andThen_blocked] at h; cases h

theorem NoErr.ite {c : Prop} [Decidable c] {x y : M I O α} (hx : c → NoErr e x) (hy : ¬ c → NoErr e y) : NoErr e (if c then x else y) := by
  split
  · exact hx ‹_›
  · exact hy ‹_›

theorem NoErr.when (b : Bool) {x : M I O Unit} (h : b = true → NoErr e x) : NoErr e (when b x) := by
  unfold Coro.when; split
  · exact h ‹_›
  · exact NoErr.pure _

theorem NoErr.iter (body : β → M I O (β ⊕ α)) (hb : ∀ b, NoErr e (body b)) (n : Nat) : ∀ b, NoErr e (iter body n b) := by
  induction n with
  | zero => intro b s s' h; simp [Coro.iter] at h
  | succ n ih =>
    intro b
    refine NoErr.bind (hb b) fun x => ?_
    cases x with
    | inl b' => exact ih b'
    | inr a => exact NoErr.pure _

theorem NoErr.loop (body : β → M I O (β ⊕ α)) (hb : ∀ b, NoErr e (body b)) (b : β) : NoErr e (loop body b) :=
  fun s s' h => NoErr.iter body hb _ b s s' h

theorem NoErr.writeInt {w n : Nat} (h : n < 2 ^ w) (f : LogicArray → O → O) (he : e ≠ .readOnlyWrite) : NoErr e (writeInt w n f : M I O Unit) :=
  NoErr.ite (fun _ => NoErr.write _ he) (fun hn => absurd h hn)

end

/-! ### OverflowError of the masters -/

theorem intOf_no (l : Logic) : intOf l ≠ .error .overflowError := by cases l <;> simp [intOf]

theorem waitN_no (f : I → Logic) : NoErr .overflowError (waitN f : M I O Unit) :=
  NoErr.bind (NoErr.readOnly _ (by decide)) fun _ => NoErr.bind (NoErr.loop _ (fun _ => NoErr.bind NoErr.inp fun _ =>
    NoErr.bind (NoErr.ofExcept (intOf_no _)) fun _ => NoErr.ite (fun _ => NoErr.pure _) (fun _ => NoErr.bind
      (NoErr.bind NoErr.inp fun _ => NoErr.loop _ (fun _ => NoErr.bind NoErr.awaitEdge fun _ => NoErr.bind NoErr.nextStep fun _ =>
        NoErr.bind NoErr.inp fun _ => NoErr.pure _) _) fun _ => NoErr.bind (NoErr.readOnly _ (by decide)) fun _ => NoErr.pure _)) _)
    fun _ => NoErr.nextStep

theorem mmAcquire_no : NoErr .overflowError mmAcquire :=
  NoErr.bind NoErr.getOut fun _ => NoErr.ite (fun _ => NoErr.bind NoErr.hang fun _ => NoErr.setPy _) (fun _ => NoErr.setPy _)

theorem mmRead_no (c : MmCfg) (a : Nat) (sync : Bool) (ha : a < 2 ^ c.addrW) : NoErr .overflowError (mmRead c a sync) := by
  have hw : ∀ f : MmOut → MmOut, NoErr .overflowError (write f : M MmIn MmOut Unit) := fun f => NoErr.write f (by decide)
  refine NoErr.bind (NoErr.when _ fun _ => NoErr.raise (by simp)) fun _ => NoErr.bind mmAcquire_no fun _ =>
    NoErr.bind (NoErr.when _ fun _ => NoErr.awaitEdge) fun _ => NoErr.bind (NoErr.writeInt ha _ (by decide)) fun _ =>
    NoErr.bind (hw _) fun _ => NoErr.bind (hw _) fun _ => NoErr.bind (NoErr.when _ fun _ => waitN_no _) fun _ => NoErr.bind NoErr.awaitEdge fun _ =>
    NoErr.bind (hw _) fun _ => NoErr.bind (hw _) fun _ => ?_
  have hend : NoErr .overflowError (inp >>= fun i => mmRelease >>= fun _ => pure i.readdata : M MmIn MmOut LogicArray) :=
    NoErr.bind NoErr.inp fun _ => NoErr.bind (NoErr.setPy _) fun _ => NoErr.pure _
  refine NoErr.ite (fun _ => ?_) (fun _ => ?_)
  · refine NoErr.bind (NoErr.loop _ (fun _ => ?_) _) fun _ => hend
    exact NoErr.bind (NoErr.readOnly _ (by decide)) fun _ => NoErr.bind NoErr.inp fun _ => NoErr.bind (NoErr.ofExcept (intOf_no _)) fun _ =>
      NoErr.ite (fun _ => NoErr.bind NoErr.awaitEdge fun _ => NoErr.pure _) (fun _ => NoErr.pure _)
  · exact NoErr.bind (NoErr.readOnly _ (by decide)) fun _ => hend

theorem mmWrite_no (c : MmCfg) (a v : Nat) (ha : a < 2 ^ c.addrW) (hv : v < 2 ^ c.dataW) : NoErr .overflowError (mmWrite c a v) := by
  have hw : ∀ f : MmOut → MmOut, NoErr .overflowError (write f : M MmIn MmOut Unit) := fun f => NoErr.write f (by decide)
  exact NoErr.bind (NoErr.when _ fun _ => NoErr.raise (by simp)) fun _ => NoErr.bind mmAcquire_no fun _ =>
    NoErr.bind NoErr.awaitEdge fun _ => NoErr.bind (NoErr.writeInt ha _ (by decide)) fun _ => NoErr.bind (NoErr.writeInt hv _ (by decide)) fun _ =>
    NoErr.bind (hw _) fun _ => NoErr.bind (hw _) fun _ => NoErr.bind (NoErr.when _ fun _ => waitN_no _) fun _ => NoErr.bind NoErr.awaitEdge fun _ =>
    NoErr.bind (hw _) fun _ => NoErr.bind (hw _) fun _ => NoErr.bind (hw _) fun _ => NoErr.setPy _

theorem binarySlice_no (v : LogicArray) (a b : Nat) : binarySlice v a b ≠ .error .overflowError := by
  unfold binarySlice; split
  · split <;> simp
  · simp

theorem bind_except_no {x : Except PyErr α} {f : α → Except PyErr β} (hx : x ≠ .error .overflowError) (hf : ∀ a, f a ≠ .error .overflowError) :
    (x >>= f) ≠ .error .overflowError := by
  cases x with
  | ok a => exact hf a
  | error e => intro h; apply hx; cases h; rfl

theorem mapM_no {f : α → Except PyErr β} (hf : ∀ a, f a ≠ .error .overflowError) : ∀ l : List α, l.mapM f ≠ .error .overflowError
  | [] => by simp [List.mapM_nil, pure, Except.pure]
  | a :: l => by
    rw [List.mapM_cons]
    exact bind_except_no (hf a) fun b => bind_except_no (mapM_no hf l) fun bs => by simp [pure, Except.pure]

theorem createBinaryStr_no (v : LogicArray) (n : Nat) : createBinaryStr v n ≠ .error .overflowError := by
  unfold createBinaryStr; split
  · split <;> simp
  · split <;> simp

theorem axiFinish_no (address length size : Nat) (burst : AxiBurst) (rr : Bool) (st : RState) :
    axiFinish address length size burst rr st ≠ .error .overflowError := by
  unfold axiFinish; split
  · simp
  · refine bind_except_no ?_ fun d => ?_
    · unfold axiReadWords
      split
      · have hr : ∀ sb sh, axiRealign st.data sb sh ≠ .error .overflowError := fun sb sh => mapM_no (fun i => by
          unfold axiWord
          exact bind_except_no (createBinaryStr_no _ _) fun b => by simp [pure, Except.pure]) _
        cases burst with
        | fixed => exact mapM_no (fun w => binarySlice_no _ _ _) _
        | incr => exact hr _ _
        | wrap => exact hr _ _
      · simp
    · split
      · simp [pure, Except.pure]
      · split <;> simp [pure, Except.pure]

theorem axiReadRun_no (c : AxCfg) (a length size : Nat) (burst : AxiBurst) (rr sync : Bool) (h : AddrFits c a length size) (hs : 0 < size) :
    NoErr .overflowError (axiReadRun c a length size burst rr sync) := by
  obtain ⟨h1, h2⟩ := h
  have hw : ∀ f : AddrOut → AddrOut, NoErr .overflowError (write f : M AxIn AddrOut Unit) := fun f => NoErr.write f (by decide)
  refine NoErr.bind ?_ fun _ => NoErr.bind (NoErr.loop _ (fun st => ?_) _) fun st => NoErr.bind NoErr.awaitEdge fun _ => NoErr.ofExcept (axiFinish_no _ _ _ _ _ _)
  · refine NoErr.bind (NoErr.when _ fun _ => NoErr.awaitEdge) fun _ => NoErr.bind ?_ fun _ => NoErr.bind ?_ fun _ => NoErr.bind NoErr.awaitEdge fun _ => hw _
    · refine NoErr.bind (NoErr.writeInt h1 _ (by decide)) fun _ => NoErr.bind (hw _) fun _ => NoErr.when _ fun hf => ?_
      obtain ⟨g1, g2, g3⟩ := h2 hf
      have hb : burst.code < 2 ^ c.burstW := Nat.lt_of_lt_of_le (by cases burst <;> decide) (Nat.pow_le_pow_right (by decide) g1)
      have hl : bitLength size - 1 < 2 ^ c.sizeW := by rw [show bitLength size - 1 = Nat.log2 size by simp [bitLength, Nat.ne_of_gt hs]]; exact g3
      exact NoErr.bind (NoErr.writeInt hb _ (by decide)) fun _ => NoErr.bind (NoErr.writeInt g2 _ (by decide)) fun _ => NoErr.writeInt hl _ (by decide)
    · exact NoErr.bind (NoErr.readOnly _ (by decide)) fun _ => NoErr.loop _ (fun _ => NoErr.bind NoErr.inp fun _ => NoErr.bind (NoErr.ofExcept (by simp)) fun _ =>
        NoErr.ite (fun _ => NoErr.pure _) (fun _ => NoErr.bind NoErr.awaitEdge fun _ => NoErr.bind (NoErr.readOnly _ (by decide)) fun _ => NoErr.pure _)) _
  · refine NoErr.bind (NoErr.readOnly _ (by decide)) fun _ => NoErr.bind NoErr.inp fun i => NoErr.ite (fun _ => ?_) (fun _ => NoErr.bind NoErr.awaitEdge fun _ => NoErr.pure _)
    refine NoErr.bind (NoErr.ofExcept ?_) fun w => NoErr.bind (NoErr.ofExcept ?_) fun r =>
      NoErr.ite (fun _ => NoErr.pure _) (fun _ => NoErr.bind NoErr.awaitEdge fun _ => NoErr.pure _)
    · unfold shiftAndMask; split
      · simp
      · exact binarySlice_no _ _ _
    · unfold axiResp; split
      · split <;> simp
      · simp

/-! ### Addresses that do not fit -/

theorem writeInt_big {w n : Nat} (h : ¬ n < 2 ^ w) (f : LogicArray → O → O) (s : Sim I O) : (writeInt w n f : M I O Unit) s = ([], .err .overflowError s) := by
  unfold writeInt; rw [if_neg h]; rfl

/-- `x` does not return -/
def NoOk (x : M I O α) : Prop := ∀ s a s', (x s).2 ≠ .ok a s'

theorem NoOk.bindL {x : M I O α} {f : α → M I O β} (hx : NoOk x) : NoOk (x >>= f) := fun s b s' h => by
  obtain ⟨a, s1, h1, -⟩ := ok_of_bind h
  exact hx s a s1 h1

theorem NoOk.bindR {x : M I O α} {f : α → M I O β} (hf : ∀ a, NoOk (f a)) : NoOk (x >>= f) := fun s b s' h => by
  obtain ⟨a, s1, -, h1⟩ := ok_of_bind h
  exact hf a s1 b s' h1

theorem NoOk.writeInt {w n : Nat} (h : ¬ n < 2 ^ w) (f : LogicArray → O → O) : NoOk (writeInt w n f : M I O Unit) := fun s a s' he => by
  rw [writeInt_big h] at he; cases he

theorem mmRead_big (c : MmCfg) (a : Nat) (sync : Bool) (ha : ¬ a < 2 ^ c.addrW) : NoOk (mmRead c a sync) :=
  NoOk.bindR fun _ => NoOk.bindR fun _ => NoOk.bindR fun _ => NoOk.bindL (NoOk.writeInt ha _)

theorem mmWrite_big (c : MmCfg) (a v : Nat) (ha : ¬ a < 2 ^ c.addrW) : NoOk (mmWrite c a v) :=
  NoOk.bindR fun _ => NoOk.bindR fun _ => NoOk.bindR fun _ => NoOk.bindL (NoOk.writeInt ha _)

theorem axiReadRun_big (c : AxCfg) (a length size : Nat) (burst : AxiBurst) (rr sync : Bool) (ha : ¬ a < 2 ^ c.addrW) :
    NoOk (axiReadRun c a length size burst rr sync) :=
  NoOk.bindL (NoOk.bindR fun _ => NoOk.bindL (NoOk.bindL (NoOk.writeInt ha _)))

theorem mmRead_big_now (c : MmCfg) (a : Nat) (ha : ¬ a < 2 ^ c.addrW) (hr : c.hasRead = true) (s : Sim MmIn MmOut) (hb : s.out.busy = false) :
    mmRead c a false s = ([], .err .overflowError { s with out := { s.out with busy := true } }) := by
  rw [mmRead_eq c a false hr s hb]
  unfold mmReadReq
  simp only [Coro.when, Bool.false_eq_true, if_false, pure_bind, bind_assoc]
  rw [bind_run, writeInt_big ha]
  rfl

theorem axiReadRun_big_now (c : AxCfg) (a length size : Nat) (burst : AxiBurst) (rr : Bool) (ha : ¬ a < 2 ^ c.addrW) (s : Sim AxIn AddrOut) :
    axiReadRun c a length size burst rr false s = ([], .err .overflowError s) := by
  unfold axiReadRun sendReadAddress setAddr
  simp only [Coro.when, Bool.false_eq_true, if_false, pure_bind, bind_assoc]
  rw [bind_run, writeInt_big ha]
  rfl

end CocotbBus
