import Verif.Proof.WaitN

/-! # Causality: what a coroutine drives does not depend on later inputs -/

namespace CocotbBus
open Coro
variable {I O α β : Type}

/-- the same simulation with one more cycle at the end -/
def Sim.snoc (s : Sim I O) (i : I) : Sim I O := { s with rest := s.rest ++ [i] }

/-- the run with one more cycle at the end goes on where the run without it stopped -/
def Extends (i : I) (r r' : Res I O α) : Prop :=
  match r with
  | (t, .ok a s) => r' = (t, .ok a (s.snoc i))
  | (t, .err e s) => r' = (t, .err e (s.snoc i))
  | (t, .blocked s) => r' = (t, .blocked (s.snoc i)) ∨ (s.rest = [] ∧ ∃ q t' e, r' = (t ++ q :: t', e) ∧ q.1 = s.out)

/-- causality, and one record per edge -/
def Causal (x : M I O α) : Prop := ∀ s : Sim I O, (x s).1.length + (x s).2.sim.rest.length = s.rest.length ∧ ∀ i, Extends i (x s) (x (s.snoc i))

theorem Causal.pure (a : α) : Causal (pure a : M I O α) := fun _ => ⟨Nat.zero_add _, fun _ => rfl⟩
theorem Causal.raise (e : PyErr) : Causal (raise e : M I O α) := fun _ => ⟨Nat.zero_add _, fun _ => rfl⟩
theorem Causal.inp : Causal (inp : M I O I) := fun _ => ⟨Nat.zero_add _, fun _ => rfl⟩
theorem Causal.nextStep : Causal (nextStep : M I O Unit) := fun _ => ⟨Nat.zero_add _, fun _ => rfl⟩
theorem Causal.getOut : Causal (getOut : M I O O) := fun _ => ⟨Nat.zero_add _, fun _ => rfl⟩
theorem Causal.setPy (f : O → O) : Causal (setPy f : M I O Unit) := fun _ => ⟨Nat.zero_add _, fun _ => rfl⟩
theorem Causal.hang : Causal (hang : M I O α) := fun _ => ⟨Nat.zero_add _, fun _ => .inl rfl⟩
theorem Causal.readOnly (b : Bool) : Causal (readOnly b : M I O Unit) := fun s => by
  by_cases h : b = true ∧ s.phase = .ro
  · have h1 : (Coro.readOnly b : M I O Unit) s = ([], .err .readOnlyAwait s) := if_pos h
    have h2 : ∀ i, (Coro.readOnly b : M I O Unit) (s.snoc i) = ([], .err .readOnlyAwait (s.snoc i)) := fun i => if_pos h
    exact ⟨by rw [h1]; exact Nat.zero_add _, fun i => by rw [h1, h2]; exact rfl⟩
  · have h1 : (Coro.readOnly b : M I O Unit) s = ([], .ok () { s with phase := .ro }) := if_neg h
    have h2 : ∀ i, (Coro.readOnly b : M I O Unit) (s.snoc i) = ([], .ok () { s.snoc i with phase := .ro }) := fun i => if_neg h
    exact ⟨by rw [h1]; exact Nat.zero_add _, fun i => by rw [h1, h2]; exact rfl⟩
theorem Causal.write (f : O → O) : Causal (write f : M I O Unit) := fun s => by
  by_cases h : s.phase = .ro
  · have h1 : (Coro.write f : M I O Unit) s = ([], .err .readOnlyWrite s) := if_pos h
    have h2 : ∀ i, (Coro.write f : M I O Unit) (s.snoc i) = ([], .err .readOnlyWrite (s.snoc i)) := fun i => if_pos h
    exact ⟨by rw [h1]; exact Nat.zero_add _, fun i => by rw [h1, h2]; exact rfl⟩
  · have h1 : (Coro.write f : M I O Unit) s = ([], .ok () { s with out := f s.out }) := if_neg h
    have h2 : ∀ i, (Coro.write f : M I O Unit) (s.snoc i) = ([], .ok () { s.snoc i with out := f (s.snoc i).out }) := fun i => if_neg h
    exact ⟨by rw [h1]; exact Nat.zero_add _, fun i => by rw [h1, h2]; exact rfl⟩
theorem Causal.ofExcept (x : Except PyErr α) : Causal (ofExcept x : M I O α) := fun _ => by
  cases x <;> exact ⟨Nat.zero_add _, fun _ => rfl⟩

theorem Causal.awaitEdge : Causal (awaitEdge : M I O Unit) := fun s => by
  obtain ⟨ph, out, prev, cur, rest⟩ := s
  cases rest with
  | nil => exact ⟨rfl, fun i => .inr ⟨rfl, (out, cur), [], _, rfl, rfl⟩⟩
  | cons j r => exact ⟨by show 1 + r.length = r.length + 1; omega, fun i => rfl⟩

theorem Causal.bind {x : M I O α} {f : α → M I O β} (hx : Causal x) (hf : ∀ a, Causal (f a)) : Causal (x >>= f) := by
  intro s
  obtain ⟨h1, h2⟩ := hx s
  rw [bind_run]
  simp only [bind_run]
  cases hr : x s with
  | mk t e =>
    rw [hr] at h1
    simp only [hr] at h2
    cases e with
    | ok a s' =>
      obtain ⟨g1, g2⟩ := hf a s'
      refine ⟨?_, fun i => ?_⟩
      · simp only [andThen_ok, List.length_append]
        have h1 : t.length + s'.rest.length = s.rest.length := h1
        omega
      · have h2 : x (s.snoc i) = (t, .ok a (s'.snoc i)) := h2 i
        have g2 := g2 i
        rw [h2, andThen_ok, andThen_ok]
        cases hf : f a s' with
        | mk t' e' =>
          rw [hf] at g2
          cases e' with
          | ok b s'' =>
            have g2 : f a (s'.snoc i) = _ := g2
            rw [g2]; exact rfl
          | err b s'' =>
            have g2 : f a (s'.snoc i) = _ := g2
            rw [g2]; exact rfl
          | blocked s'' =>
            rcases g2 with g2 | ⟨g2, q, t'', e, g3, g4⟩
            · rw [g2]; exact .inl rfl
            · refine .inr ⟨g2, q, t'', e, ?_, g4⟩
              rw [g3, List.append_assoc]
    | err e s' =>
      refine ⟨h1, fun i => ?_⟩
      have h2 : x (s.snoc i) = (t, .err e (s'.snoc i)) := h2 i
      rw [h2]; exact rfl
    | blocked s' =>
      refine ⟨h1, fun i => ?_⟩
      rcases h2 i with h2 | ⟨h2, q, t'', e, h3, h4⟩
      · rw [h2]; exact .inl rfl
      · rw [h3]
        cases e with
        | ok a s'' => exact .inr ⟨h2, q, t'' ++ (f a s'').1, (f a s'').2, by rw [andThen_ok, List.append_assoc, List.cons_append], h4⟩
        | err a s'' => exact .inr ⟨h2, q, t'', _, rfl, h4⟩
        | blocked s'' => exact .inr ⟨h2, q, t'', _, rfl, h4⟩

theorem Causal.when (b : Bool) {x : M I O Unit} (hx : Causal x) : Causal (when b x) := by
  cases b
  · exact Causal.pure ()
  · exact hx

theorem Causal.ite {c : Prop} [Decidable c] {x y : M I O α} (hx : Causal x) (hy : Causal y) : Causal (if c then x else y) := by
  split
  · exact hx
  · exact hy

theorem Causal.edges (n : Nat) : Causal (edges n : M I O Unit) := by
  induction n with
  | zero => exact Causal.pure ()
  | succ n ih => exact Causal.bind Causal.awaitEdge fun _ => ih

theorem causal_loop_aux (body : β → M I O (β ⊕ α)) (hc : Consumes body) (hb : ∀ b, Causal (body b)) (n : Nat) : ∀ (b : β) (s : Sim I O),
    s.rest.length < n →
    (loop body b s).1.length + (loop body b s).2.sim.rest.length = s.rest.length ∧ ∀ i, Extends i (loop body b s) (loop body b (s.snoc i)) := by
  induction n with
  | zero => intro b s h; omega
  | succ n ih =>
    intro b s hn
    rw [loop_unfold body hc]
    simp only [fun i => loop_unfold body hc b (s.snoc i)]
    obtain ⟨h1, h2⟩ := hb b s
    rw [bind_run]
    simp only [bind_run]
    cases hr : body b s with
    | mk t e =>
      rw [hr] at h1
      simp only [hr] at h2
      cases e with
      | ok a s' =>
        have h1 : t.length + s'.rest.length = s.rest.length := h1
        have h2 : ∀ i, body b (s.snoc i) = (t, .ok a (s'.snoc i)) := h2
        simp only [h2, andThen_ok]
        cases a with
        | inr a => exact ⟨by simpa [pure_run, End.sim] using h1, fun i => by simp only [pure_run]; exact rfl⟩
        | inl b' =>
          have := hc b s t b' s' hr
          obtain ⟨g1, g2⟩ := ih b' s' (by omega)
          refine ⟨by simp only [List.length_append]; omega, fun i => ?_⟩
          have g2 := g2 i
          simp only
          cases hf : loop body b' s' with
          | mk t' e' =>
            rw [hf] at g2
            cases e' with
            | ok b s'' =>
              have g2 : loop body b' (s'.snoc i) = _ := g2
              rw [g2]; exact rfl
            | err b s'' =>
              have g2 : loop body b' (s'.snoc i) = _ := g2
              rw [g2]; exact rfl
            | blocked s'' =>
              rcases g2 with g2 | ⟨g2, q, t'', e, g3, g4⟩
              · rw [g2]; exact .inl rfl
              · refine .inr ⟨g2, q, t'', e, ?_, g4⟩
                rw [g3, List.append_assoc]
      | err e s' =>
        refine ⟨h1, fun i => ?_⟩
        have h2 : body b (s.snoc i) = (t, .err e (s'.snoc i)) := h2 i
        rw [h2]; exact rfl
      | blocked s' =>
        refine ⟨h1, fun i => ?_⟩
        rcases h2 i with h2 | ⟨h2, q, t'', e, h3, h4⟩
        · rw [h2]; exact .inl rfl
        · rw [h3]
          cases e with
          | ok a s'' =>
            cases a with
            | inl a => exact .inr ⟨h2, q, t'' ++ (loop body a s'').1, (loop body a s'').2, by rw [andThen_ok, List.append_assoc, List.cons_append], h4⟩
            | inr a => exact .inr ⟨h2, q, t'' ++ [], .ok a s'', by rw [andThen_ok, List.append_assoc, List.cons_append]; rfl, h4⟩
          | err a s'' => exact .inr ⟨h2, q, t'', _, rfl, h4⟩
          | blocked s'' => exact .inr ⟨h2, q, t'', _, rfl, h4⟩

theorem Causal.loop (body : β → M I O (β ⊕ α)) (hc : Consumes body) (hb : ∀ b, Causal (body b)) (b : β) : Causal (loop body b) :=
  fun s => causal_loop_aux body hc hb (s.rest.length + 1) b s (by omega)

theorem Causal.waitRO (test : I → Except PyErr Bool) : Causal (waitRO test : M I O Unit) :=
  Causal.bind (Causal.readOnly _) fun _ => Causal.loop (waitBody test) (waitBody_consumes test)
    (fun _ => Causal.bind Causal.inp fun _ => Causal.bind (Causal.ofExcept _) fun _ => Causal.ite (Causal.pure _)
      (Causal.bind Causal.awaitEdge fun _ => Causal.bind (Causal.readOnly _) fun _ => Causal.pure _)) ()

theorem Causal.changeLoop (f : I → Logic) (v : Logic) : Causal (Coro.loop (changeBody f v) () : M I O Unit) :=
  Causal.loop (changeBody f v) (changeBody_consumes f v)
    (fun _ => Causal.bind Causal.awaitEdge fun _ => Causal.bind Causal.nextStep fun _ => Causal.bind Causal.inp fun _ => Causal.pure _) ()

theorem awaitChange_eq (f : I → Logic) : (awaitChange f : M I O Unit) = Coro.inp >>= fun i => loop (changeBody f (f i)) () := rfl

theorem Causal.awaitChange (f : I → Logic) : Causal (awaitChange f : M I O Unit) := by
  rw [awaitChange_eq]
  exact Causal.bind Causal.inp fun _ => Causal.changeLoop f _

/-- waiting for a change takes at least one edge -/
theorem changeLoop_less (f : I → Logic) (v : Logic) (s : Sim I O) (t : List (O × I)) (s' : Sim I O)
    (h : loop (changeBody f v) () s = (t, .ok () s')) : s'.rest.length < s.rest.length := by
  obtain ⟨ph, out, prev, cur, rest⟩ := s
  rw [loop_unfold _ (changeBody_consumes f v)] at h
  unfold changeBody at h
  cases rest with
  | nil => rw [bind_assoc_run, bind_awaitEdge_nil _ _ rfl] at h; cases h
  | cons i r =>
    rw [bind_assoc_run, bind_awaitEdge_cons _ _ i r rfl] at h
    simp only [bind_assoc_run] at h
    rw [bind_nextStep] at h
    simp only [bind_assoc_run] at h
    rw [bind_inp_mid _ _ rfl] at h
    by_cases hj : f i = v
    · simp only [hj, if_true, bind_pure_run] at h
      have := (Causal.changeLoop (O := O) f v ⟨.mid, out, cur, i, r⟩).1
      have h2 : (loop (changeBody f v) () (⟨.mid, out, cur, i, r⟩ : Sim I O)).2 = .ok () s' := congrArg Prod.snd h
      rw [h2] at this
      have : _ + s'.rest.length = r.length := this
      show s'.rest.length < r.length + 1
      omega
    · simp only [hj, if_false, bind_pure_run] at h
      cases h
      show r.length < r.length + 1
      omega

theorem waitNBody_consumes (f : I → Logic) : Consumes (waitNBody (O := O) f) := by
  intro b s t b' s' h
  unfold waitNBody at h
  obtain ⟨v, hv⟩ : ∃ v, (inp : M I O I) s = ([], .ok v s) := ⟨_, rfl⟩
  rw [bind_silent inp _ s s v hv] at h
  cases ht : intOf (f v) with
  | error e => rw [ht, bind_ofExcept_error] at h; cases h
  | ok k =>
    rw [ht, bind_ofExcept_ok] at h
    by_cases hk : k = 0
    · rw [if_pos hk] at h; cases h
    · rw [if_neg hk, awaitChange_eq, bind_assoc_run, bind_silent inp _ s s v hv, bind_run] at h
      cases hl : loop (changeBody f (f v)) () s with
      | mk t1 e1 =>
        rw [hl] at h
        cases e1 with
        | ok u s1 =>
          rw [andThen_ok] at h
          have h1 := changeLoop_less f (f v) s t1 s1 hl
          have h2 := congrArg Prod.snd h
          have h3 := (Causal.bind (Causal.readOnly (I := I) (O := O) true) fun _ => Causal.pure (Sum.inl () : Unit ⊕ Unit)) s1
          have h3 := h3.1
          rw [h2] at h3
          have h3 : _ + s'.rest.length = s1.rest.length := h3
          omega
        | err e s1 => cases h
        | blocked s1 => cases h

theorem Causal.waitN (f : I → Logic) : Causal (waitN f : M I O Unit) :=
  Causal.bind (Causal.readOnly _) fun _ => Causal.bind (Causal.loop (waitNBody f) (waitNBody_consumes f)
    (fun _ => Causal.bind Causal.inp fun _ => Causal.bind (Causal.ofExcept _) fun _ => Causal.ite (Causal.pure _)
      (Causal.bind (Causal.awaitChange f) fun _ => Causal.bind (Causal.readOnly _) fun _ => Causal.pure _)) ()) fun _ => Causal.nextStep

end CocotbBus
