import Verif.Model.MmTasks
import Verif.Proof.Causal
import Verif.Proof.AvalonMM

/-! # The calls of an Avalon-MM master as programs -/

namespace CocotbBus
open Coro Spec
variable {I O α β : Type}

/-- the program as a coroutine -/
def Prog.toM : Prog I O α → M I O α
  | .ret a => pure a
  | .raise e => Coro.raise e
  | .write f k => Coro.write f >>= fun _ => k.toM
  | .inp k => Coro.inp >>= fun i => (k i).toM
  | .edge k => awaitEdge >>= fun _ => k.toM
  | .untilRO test k => waitRO test >>= fun _ => k.toM
  | .next k => nextStep >>= fun _ => k.toM

/-- `waitRO` from the ReadOnly phase on -/
def roM (test : I → Except PyErr Bool) : M I O Unit := fun s => loop (waitBody test) () { s with phase := .ro }

/-- what is left to do at a wait -/
def Stop.toM : Stop → M MmIn MmOut (Option LogicArray)
  | .ret a => pure a
  | .raise e => Coro.raise e
  | .edge k => awaitEdge >>= fun _ => k.toM
  | .ro test k => roM test >>= fun _ => k.toM
  | .next k => nextStep >>= fun _ => k.toM

theorem exec_toM (p : Prog MmIn MmOut (Option LogicArray)) : ∀ s : Sim MmIn MmOut,
    p.toM s = (p.exec s.phase s.prev s.cur s.out).2.toM { s with out := (p.exec s.phase s.prev s.cur s.out).1 } := by
  induction p with
  | ret a => intro s; rfl
  | raise e => intro s; rfl
  | write f k ih =>
    intro s
    rw [Prog.toM, Prog.exec]
    by_cases hp : s.phase = .ro
    · rw [if_pos hp, bind_run, write_ro f s hp]; rfl
    · rw [if_neg hp, bind_write f _ s hp, ih]
  | inp k ih =>
    intro s
    obtain ⟨ph, o, pv, cu, r⟩ := s
    cases ph
    · show (Coro.inp >>= fun i => (k i).toM) _ = _
      rw [bind_inp_edge _ _ rfl, ih]; rfl
    · show (Coro.inp >>= fun i => (k i).toM) _ = _
      rw [bind_inp_ro _ _ rfl, ih]; rfl
    · show (Coro.inp >>= fun i => (k i).toM) _ = _
      rw [bind_inp_mid _ _ rfl, ih]; rfl
  | edge k _ => intro s; rfl
  | untilRO test k _ =>
    intro s
    rw [Prog.toM, Prog.exec]
    by_cases hp : s.phase = .ro
    · rw [if_pos hp]
      have h1 : (waitRO test : M MmIn MmOut Unit) s = ([], .err .readOnlyAwait s) := by
        unfold waitRO
        rw [bind_run]
        simp [readOnly, hp]
      rw [bind_run, h1]; rfl
    · rw [if_neg hp, bind_run, waitRO_eq test s hp]; rfl
  | next k _ => intro s; rfl

/-- the wait in the ReadOnly phase, by the value of the test -/
theorem roM_error (test : I → Except PyErr Bool) (k : Unit → M I O α) (s : Sim I O) (e : PyErr) (h : test s.cur = .error e) :
    (roM test >>= k) s = ([], .err e { s with phase := .ro }) := by
  rw [bind_run, roM, loop_unfold _ (waitBody_consumes test)]
  unfold waitBody
  rw [bind_assoc_run, bind_inp_ro _ _ rfl, bind_assoc_run, h, bind_ofExcept_error]
  rfl

theorem roM_true (test : I → Except PyErr Bool) (k : Unit → M I O α) (s : Sim I O) (h : test s.cur = .ok true) :
    (roM test >>= k) s = k () { s with phase := .ro } := by
  rw [bind_run, roM, loop_unfold _ (waitBody_consumes test)]
  unfold waitBody
  rw [bind_assoc_run, bind_inp_ro _ _ rfl, bind_assoc_run, h, bind_ofExcept_ok]
  simp only [if_true, bind_pure_run, pure_run]
  exact andThen_nil_ok _ _ _

theorem roM_false (test : I → Except PyErr Bool) (k : Unit → M I O α) (s : Sim I O) (h : test s.cur = .ok false) :
    (roM test >>= k) s = (awaitEdge >>= fun _ => waitRO test >>= k) { s with phase := .ro } := by
  rw [bind_run, roM, loop_unfold _ (waitBody_consumes test)]
  unfold waitBody
  rw [bind_assoc_run, bind_inp_ro _ _ rfl, bind_assoc_run, h, bind_ofExcept_ok]
  simp only [Bool.false_eq_true, if_false, bind_assoc_run]
  rw [← bind_run, bind_assoc_run]
  cases hr : s.rest with
  | nil => rw [bind_awaitEdge_nil _ _ (by simp), bind_awaitEdge_nil _ _ (by simp)]
  | cons i r =>
    rw [bind_awaitEdge_cons _ _ i r (by simp), bind_awaitEdge_cons _ _ i r (by simp)]
    congr 1


/-! ### Results up to the phase in which they raise or wait -/

/-- forget the phase at the end, unless it is a normal return -/
def normEnd : End I O α → End I O α
  | .ok a s => .ok a s
  | .err e s => .err e { s with phase := .mid }
  | .blocked s => .blocked { s with phase := .mid }

def norm (r : Res I O α) : Res I O α := (r.1, normEnd r.2)

theorem norm_bind {x y : M I O α} {f g : α → M I O β} {s s' : Sim I O} (h : norm (x s) = norm (y s'))
    (hfg : ∀ a s, norm (f a s) = norm (g a s)) : norm ((x >>= f) s) = norm ((y >>= g) s') := by
  rw [bind_run, bind_run]
  generalize x s = r at h
  generalize y s' = r' at h
  obtain ⟨t, e⟩ := r
  obtain ⟨t', e'⟩ := r'
  simp only [norm, Prod.mk.injEq] at h
  obtain ⟨rfl, h⟩ := h
  cases e <;> cases e' <;> simp only [normEnd, End.ok.injEq, reduceCtorEq] at h
  · obtain ⟨rfl, rfl⟩ := h
    rename_i a s1
    have := hfg a s1
    simp only [norm, Prod.mk.injEq] at this
    simp only [andThen_ok, norm, this.1, this.2]
  · simpa [norm, normEnd] using h
  · simpa [norm, normEnd] using h

theorem norm_bind_same {x : M I O α} {f g : α → M I O β} {s : Sim I O}
    (hfg : ∀ a s, norm (f a s) = norm (g a s)) : norm ((x >>= f) s) = norm ((x >>= g) s) := norm_bind rfl hfg

/-- the test for a low signal -/
def lowTest (f : I → Logic) (i : I) : Except PyErr Bool := (intOf (f i)).map (· == 0)

/-- from the ReadOnly phase on, if the signal is not high -/
theorem waitNLoop_low (f : I → Logic) (s : Sim I O) (hs : s.phase = .ro) (h : f s.cur ≠ .one) :
    ((loop (waitNBody f) () >>= fun _ => nextStep : M I O Unit) s) = (roM (lowTest f) >>= fun _ => nextStep : M I O Unit) s := by
  have e1 : ({ s with phase := .ro } : Sim I O) = s := by rw [← hs]
  rw [bind_run, loop_unfold _ (waitNBody_consumes f), bind_run]
  cases hf : f s.cur with
  | one => exact absurd hf h
  | zero =>
    rw [waitNBody_zero f s hs hf, roM_true _ _ _ (by simp [lowTest, hf, intOf, Except.map]), e1]
    rfl
  | x =>
    rw [waitNBody_bad f s hs (by simp [hf]) h, roM_error _ _ _ .valueError (by simp [lowTest, hf, intOf, Except.map]), e1]
    rfl
  | z =>
    rw [waitNBody_bad f s hs (by simp [hf]) h, roM_error _ _ _ .valueError (by simp [lowTest, hf, intOf, Except.map]), e1]
    rfl

theorem waitNLoop_change (f : I → Logic) (rest : List I) : ∀ (ph ph' : Phase) (out : O) (prev cur : I),
    norm ((loop (changeBody f .one) () >>= fun _ => readOnly >>= fun _ => loop (waitNBody f) () >>= fun _ => nextStep : M I O Unit)
      ⟨ph, out, prev, cur, rest⟩) =
    norm ((awaitEdge >>= fun _ => waitRO (lowTest f) >>= fun _ => nextStep : M I O Unit) ⟨ph', out, prev, cur, rest⟩) := by
  induction rest with
  | nil =>
    intro ph ph' out prev cur
    rw [bind_run, loop_unfold _ (changeBody_consumes f .one)]
    unfold changeBody
    rw [bind_assoc_run, bind_awaitEdge_nil _ _ rfl, bind_awaitEdge_nil _ _ rfl]
    rfl
  | cons j r ih =>
    intro ph ph' out prev cur
    rw [bind_run, loop_unfold _ (changeBody_consumes f .one)]
    unfold changeBody
    rw [bind_assoc_run, bind_awaitEdge_cons _ _ j r rfl, bind_awaitEdge_cons _ _ j r rfl]
    simp only [bind_assoc_run]
    rw [bind_nextStep]
    simp only [bind_assoc_run]
    rw [bind_inp_mid _ _ rfl]
    have hcons : ∀ (x y : Res I O Unit) (p : O × I), norm x = norm y → norm (p :: x.1, x.2) = norm (p :: y.1, y.2) := by
      intro x y p h
      simp only [norm, Prod.mk.injEq] at h
      simp only [norm, h.1, h.2]
    have hand : ∀ (x : Res I O Unit) (p : O × I) (k : Unit → M I O Unit),
        Res.andThen (p :: x.1, x.2) k = (p :: (x.andThen k).1, (x.andThen k).2) := by
      rintro ⟨t, e⟩ p k
      cases e <;> rfl
    rw [hand]
    apply hcons
    rw [bind_run (waitRO _), waitRO_eq _ _ (by simp)]
    by_cases hj : f j = .one
    · simp only [hj, if_true, bind_pure_run]
      have := ih .mid .ro out cur j
      rw [bind_run] at this
      unfold changeBody at this
      rw [this]
      have hf := roM_false (O := O) (lowTest f) (fun _ => nextStep) ⟨.edge, out, cur, j, r⟩ (by simp [lowTest, hj, intOf, Except.map])
      rw [bind_run] at hf
      exact congrArg norm hf.symm
    · simp only [hj, if_false, bind_pure_run, pure_run, andThen_nil_ok]
      rw [bind_readOnly _ _ _ (by simp), waitNLoop_low f _ rfl hj]
      rfl

/-- waiting for a signal to be low: the code waits for changes, the program looks in every cycle -/
theorem waitN_norm (f : I → Logic) (s : Sim I O) :
    norm ((waitN f : M I O Unit) s) = norm ((waitRO (lowTest f) >>= fun _ => nextStep : M I O Unit) s) := by
  by_cases hs : s.phase = .ro
  · unfold waitN waitRO
    simp [bind_run, readOnly, hs]
  have hunf : (waitN f : M I O Unit) s = (loop (waitNBody f) () >>= fun _ => nextStep) { s with phase := .ro } := by
    unfold waitN
    rw [bind_readOnly _ _ _ hs]
    rfl
  rw [hunf, bind_run (waitRO _), waitRO_eq _ _ hs]
  by_cases h1 : f s.cur = .one
  · have hf := roM_false (O := O) (lowTest f) (fun _ => nextStep) s (by simp [lowTest, h1, intOf, Except.map])
    rw [bind_run] at hf
    unfold roM at hf
    rw [hf, ← waitNLoop_change f s.rest .ro .ro s.out s.prev s.cur]
    have hl : (loop (waitNBody f) () >>= fun _ => nextStep : M I O Unit) { s with phase := .ro } =
        (loop (changeBody f .one) () >>= fun _ => readOnly >>= fun _ => loop (waitNBody f) () >>= fun _ => nextStep : M I O Unit)
          { s with phase := .ro } := by
      rw [bind_run, loop_unfold _ (waitNBody_consumes f), bind_run, waitNBody_one f { s with phase := .ro } rfl h1]
      have : ∀ (x : M I O Unit) (y : Sim I O) (g : Unit ⊕ Unit → M I O Unit),
          ((x >>= fun _ => readOnly >>= fun _ => pure (Sum.inl ())) y).andThen g = (x >>= fun _ => readOnly >>= fun _ => g (.inl ())) y := by
        intro x y g
        rw [← bind_run]
        simp only [bind_assoc, pure_bind]
      rw [this, ← bind_run]
      simp only [bind_assoc]
    rw [hl]
  · rw [waitNLoop_low f { s with phase := .ro } rfl h1]
    rfl


/-! ### The calls -/

/-- `x` then release the lock -/
def finish (x : M MmIn MmOut (Option LogicArray)) : M MmIn MmOut (Option LogicArray) := x >>= fun a => mmRelease >>= fun _ => pure a

/-- a call as a program inside the lock -/
def callP (c : MmCfg) (op : MmOp) : M MmIn MmOut (Option LogicArray) :=
  match mmRefuses c op with
  | some e => Coro.raise e
  | none => mmAcquire >>= fun _ => finish (mmProg c op).toM

theorem writeInt_toM (w n : Nat) (f : LogicArray → O → O) (k : Prog I O α) :
    (Prog.writeInt w n f k).toM = (CocotbBus.writeInt w n f : M I O Unit) >>= fun _ => k.toM := by
  unfold Prog.writeInt CocotbBus.writeInt
  split <;> rfl

/-- the test for readdatavalid -/
def rdvTest (i : MmIn) : Except PyErr Bool := (intOf i.readdatavalid).map (· != 0)

theorem rdvLoop_eq (rest : List MmIn) : ∀ (ph : Phase) (out : MmOut) (prev cur : MmIn),
    loop rdvBody () ⟨ph, out, prev, cur, rest⟩ = (waitRO rdvTest : M MmIn MmOut Unit) ⟨ph, out, prev, cur, rest⟩ := by
  induction rest with
  | nil =>
    intro ph out prev cur
    by_cases hp : ph = .ro
    · subst hp
      rw [loop_unfold _ rdvBody_consumes]
      rfl
    · have hx : (waitRO rdvTest : M MmIn MmOut Unit) ⟨ph, out, prev, cur, []⟩ = (roM rdvTest >>= pure : M MmIn MmOut Unit) ⟨ph, out, prev, cur, []⟩ := by
        rw [waitRO_eq _ _ hp, bind_pure]; rfl
      rw [loop_unfold _ rdvBody_consumes, bind_run, rdvBody_run _ hp, hx]
      cases hd : cur.readdatavalid with
      | zero => rw [roM_false _ _ _ (by simp [rdvTest, hd, intOf, Except.map])]; rfl
      | one => rw [roM_true _ _ _ (by simp [rdvTest, hd, intOf, Except.map])]; rfl
      | x => rw [roM_error _ _ _ .valueError (by simp [rdvTest, hd, intOf, Except.map])]; rfl
      | z => rw [roM_error _ _ _ .valueError (by simp [rdvTest, hd, intOf, Except.map])]; rfl
  | cons j r ih =>
    intro ph out prev cur
    by_cases hp : ph = .ro
    · subst hp
      rw [loop_unfold _ rdvBody_consumes]
      rfl
    · have hx : (waitRO rdvTest : M MmIn MmOut Unit) ⟨ph, out, prev, cur, j :: r⟩ =
          (roM rdvTest >>= pure : M MmIn MmOut Unit) ⟨ph, out, prev, cur, j :: r⟩ := by
        rw [waitRO_eq _ _ hp, bind_pure]; rfl
      rw [loop_unfold _ rdvBody_consumes, bind_run, rdvBody_run _ hp, hx]
      cases hd : cur.readdatavalid with
      | zero =>
        rw [roM_false _ _ _ (by simp [rdvTest, hd, intOf, Except.map]), bind_pure]
        simp only
        rw [bind_awaitEdge_cons _ _ j r rfl, bind_awaitEdge_cons _ _ j r rfl, pure_run, ← ih]
        rfl
      | one => rw [roM_true _ _ _ (by simp [rdvTest, hd, intOf, Except.map])]; rfl
      | x => rw [roM_error _ _ _ .valueError (by simp [rdvTest, hd, intOf, Except.map])]; rfl
      | z => rw [roM_error _ _ _ .valueError (by simp [rdvTest, hd, intOf, Except.map])]; rfl

theorem rdvLoop_fun : loop rdvBody () = (waitRO rdvTest : M MmIn MmOut Unit) := by
  funext s
  exact rdvLoop_eq s.rest s.phase s.out s.prev s.cur

/-- waiting for the ReadOnly phase only -/
theorem readOnly_fun : (readOnly : M I O Unit) = waitRO fun _ => .ok true := by
  funext s
  by_cases hp : s.phase = .ro
  · unfold waitRO
    simp [bind_run, readOnly, hp]
  · have hx : (waitRO (fun _ => .ok true) : M I O Unit) s = (roM (fun _ => .ok true) >>= pure : M I O Unit) s := by
      rw [waitRO_eq _ _ hp, bind_pure]; rfl
    rw [hx, roM_true _ _ _ rfl, readOnly_ok _ _ hp]
    rfl

theorem mmStep_call (c : MmCfg) (op : MmOp) (hp : ∀ n, op ≠ .pause n) (s : Sim MmIn MmOut) : norm (mmStep c op s) = norm (callP c op s) := by
  have hw : ∀ (k : M MmIn MmOut (Option LogicArray)) (s : Sim MmIn MmOut) (p : Prog MmIn MmOut (Option LogicArray)), (∀ s, norm (k s) = norm (finish p.toM s)) →
      norm ((Coro.when c.hasWait (waitN fun i => i.waitrequest) >>= fun _ => k) s) = norm (finish (mmWaitP c p).toM s) := by
    intro k s p hk
    unfold mmWaitP
    cases c.hasWait with
    | false => simpa [Coro.when] using hk s
    | true =>
      simp only [Coro.when, if_true, finish, Prog.toM, bind_assoc]
      have h1 : (waitRO (fun i => (intOf i.waitrequest).map (· == 0)) >>= fun _ => nextStep >>= fun _ => p.toM >>= fun a => mmRelease >>= fun _ => pure a) =
        ((waitRO (lowTest fun i => i.waitrequest) >>= fun _ => nextStep) >>= fun _ => finish p.toM : M MmIn MmOut (Option LogicArray)) := by
        simp only [finish, bind_assoc]; rfl
      rw [h1]
      exact norm_bind (waitN_norm _ s) fun _ s => hk s
  cases op with
  | pause n => exact absurd rfl (hp n)
  | read a =>
    unfold callP mmStep mmRefuses mmRead
    cases c.hasRead with
    | false => rfl
    | true =>
      simp only [if_true, Bool.not_true, Coro.when, Bool.false_eq_true, if_false, pure_bind, bind_assoc]
      refine norm_bind_same fun _ s => ?_
      simp only [mmProg, Prog.toM, writeInt_toM, finish, bind_assoc]
      refine norm_bind_same fun _ s => ?_
      refine norm_bind_same fun _ s => ?_
      refine norm_bind_same fun _ s => ?_
      refine norm_bind_same fun _ s => ?_
      refine hw _ s _ fun s => ?_
      simp only [Prog.toM, finish, bind_assoc]
      refine norm_bind_same fun _ s => ?_
      refine norm_bind_same fun _ s => ?_
      refine norm_bind_same fun _ s => ?_
      cases c.hasRdv with
      | false =>
        simp only [Bool.false_eq_true, if_false, bind_assoc, pure_bind, readOnly_fun]
      | true =>
        simp only [if_true, pure_bind]
        have := rdvLoop_fun
        unfold rdvBody rdvTest at this
        rw [this]
        simp only [bind_assoc, pure_bind]
  | write a v =>
    unfold callP mmStep mmRefuses mmWrite
    cases c.hasWrite with
    | false => rfl
    | true =>
      simp only [if_true, Bool.not_true, Coro.when, Bool.false_eq_true, if_false, pure_bind, bind_assoc]
      refine norm_bind_same fun _ s => ?_
      simp only [mmProg, Prog.toM, writeInt_toM, finish, bind_assoc]
      refine norm_bind_same fun _ s => ?_
      refine norm_bind_same fun _ s => ?_
      refine norm_bind_same fun _ s => ?_
      refine norm_bind_same fun _ s => ?_
      refine norm_bind_same fun _ s => ?_
      refine hw _ s _ fun s => ?_
      simp only [Prog.toM, finish, bind_assoc, pure_bind]

end CocotbBus
