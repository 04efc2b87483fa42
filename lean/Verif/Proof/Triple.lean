import Verif.Proof.Coro

/-! # Hoare triples for coroutines -/

namespace CocotbBus
open Coro
variable {I O α β : Type}

/-- From a state satisfying `P`, every record satisfies `R`, and the end satisfies `Q` (return), `E` (exception) or `B` (still waiting). -/
structure Triple (P : Sim I O → Prop) (R : O × I → Prop) (x : M I O α) (Q : α → Sim I O → Prop) (E : PyErr → Sim I O → Prop)
    (B : Sim I O → Prop) : Prop where
  records : ∀ s, P s → ∀ r ∈ (x s).1, R r
  ok : ∀ s, P s → ∀ a s', (x s).2 = .ok a s' → Q a s'
  err : ∀ s, P s → ∀ e s', (x s).2 = .err e s' → E e s'
  blocked : ∀ s, P s → ∀ s', (x s).2 = .blocked s' → B s'

variable {P : Sim I O → Prop} {R : O × I → Prop} {Q : α → Sim I O → Prop} {E : PyErr → Sim I O → Prop} {B : Sim I O → Prop}

namespace Triple

theorem weaken {P' : Sim I O → Prop} {Q' : α → Sim I O → Prop} {x : M I O α} (h : Triple P R x Q E B) (hP : ∀ s, P' s → P s)
    (hQ : ∀ a s, Q a s → Q' a s) : Triple P' R x Q' E B :=
  ⟨fun s hs => h.records s (hP s hs), fun s hs a s' he => hQ a s' (h.ok s (hP s hs) a s' he), fun s hs => h.err s (hP s hs),
    fun s hs => h.blocked s (hP s hs)⟩

theorem pure (a : α) (h : ∀ s, P s → Q a s) : Triple P R (pure a : M I O α) Q E B :=
  ⟨fun _ _ => by simp [pure_run], fun s hs a s' he => by rw [pure_run] at he; cases he; exact h s hs,
    fun s hs e s' he => (by rw [pure_run] at he; cases he), fun s hs s' he => (by rw [pure_run] at he; cases he)⟩

theorem raise (e : PyErr) (h : ∀ s, P s → E e s) : Triple P R (raise e : M I O α) Q E B :=
  ⟨fun _ _ => by simp [Coro.raise], fun s hs a s' he => (by cases he), fun s hs e s' he => by cases he; exact h s hs,
    fun s hs s' he => (by cases he)⟩

theorem bind {S : β → Sim I O → Prop} {x : M I O β} {f : β → M I O α} (hx : Triple P R x S E B)
    (hf : ∀ b, Triple (S b) R (f b) Q E B) : Triple P R (x >>= f) Q E B := by
  refine ⟨fun s hs => ?_, fun s hs => ?_, fun s hs => ?_, fun s hs => ?_⟩ <;>
  · have h1 := hx.records s hs
    have h2 := hx.ok s hs
    have h3 := hx.err s hs
    have h4 := hx.blocked s hs
    rw [bind_run]
    cases hr : x s with
    | mk t e =>
      rw [hr] at h1 h2 h3 h4
      cases e with
      | ok b s' =>
        have hb := h2 b s' rfl
        rw [andThen_ok]
        first
        | (intro r hm; rcases List.mem_append.1 hm with hm | hm
           · exact h1 r hm
           · exact (hf b).records s' hb r hm)
        | exact (hf b).ok s' hb
        | exact (hf b).err s' hb
        | exact (hf b).blocked s' hb
      | err e s' =>
        first
        | exact h1
        | (intro e' s2 h; cases h; exact h3 _ _ rfl)
        | (intros; rename_i h; cases h; done)
      | blocked s' =>
        first
        | exact h1
        | (intro s2 h; cases h; exact h4 _ rfl)
        | (intros; rename_i h; cases h; done)

theorem awaitEdge {Q : Unit → Sim I O → Prop} (hR : ∀ s, P s → R (s.out, s.cur)) (hB : ∀ s, P s → s.rest = [] → B s)
    (hQ : ∀ s i r, P s → s.rest = i :: r → Q () { s with phase := .edge, prev := s.cur, cur := i, rest := r }) :
    Triple P R (awaitEdge : M I O Unit) Q E B := by
  refine ⟨fun s hs => ?_, fun s hs => ?_, fun s hs => ?_, fun s hs => ?_⟩ <;>
  · cases hr : s.rest with
    | nil =>
      rw [awaitEdge_nil s hr]
      first
      | simp; done
      | (intro s' h; cases h; exact hB s hs hr)
      | (intros; rename_i h; cases h)
    | cons i r =>
      rw [awaitEdge_cons s i r hr]
      first
      | (intro q hq; rw [List.mem_singleton] at hq; subst hq; exact hR s hs)
      | (intro a s' h; cases h; exact hQ s i r hs hr)
      | (intros; rename_i h; cases h)

theorem write {Q : Unit → Sim I O → Prop} (f : O → O) (hP : ∀ s, P s → s.phase ≠ .ro) (hQ : ∀ s, P s → Q () { s with out := f s.out }) :
    Triple P R (write f : M I O Unit) Q E B := by
  refine ⟨fun s hs => ?_, fun s hs => ?_, fun s hs => ?_, fun s hs => ?_⟩ <;>
  · rw [write_ok f s (hP s hs)]
    first
    | simp; done
    | (intro a s' h; cases h; exact hQ s hs)
    | (intros; rename_i h; cases h)

theorem readOnly {Q : Unit → Sim I O → Prop} (hP : ∀ s, P s → s.phase ≠ .ro) (hQ : ∀ s, P s → Q () { s with phase := .ro }) (b : Bool) :
    Triple P R (readOnly b : M I O Unit) Q E B := by
  refine ⟨fun s hs => ?_, fun s hs => ?_, fun s hs => ?_, fun s hs => ?_⟩ <;>
  · have : (Coro.readOnly b : M I O Unit) s = ([], .ok () { s with phase := .ro }) := by
      unfold Coro.readOnly; rw [if_neg (by simp [hP s hs])]
    rw [this]
    first
    | simp; done
    | (intro a s' h; cases h; exact hQ s hs)
    | (intros; rename_i h; cases h)

theorem nextStep {Q : Unit → Sim I O → Prop} (hQ : ∀ s, P s → Q () { s with phase := .mid }) :
    Triple P R (nextStep : M I O Unit) Q E B :=
  ⟨fun s hs => by simp [Coro.nextStep], fun s hs a s' h => by cases h; exact hQ s hs, fun s hs e s' h => (by cases h), fun s hs s' h => (by cases h)⟩

theorem inp {Q : I → Sim I O → Prop} (hQ : ∀ s, P s → Q (match s.phase with
  | .edge => s.prev
  | _ => s.cur) s) : Triple P R (inp : M I O I) Q E B :=
  ⟨fun s hs => by simp [Coro.inp], fun s hs a s' h => by cases h; exact hQ s hs, fun s hs e s' h => (by cases h), fun s hs s' h => (by cases h)⟩

theorem ofExcept (x : Except PyErr α) (hQ : ∀ a s, x = .ok a → P s → Q a s) (hE : ∀ e s, x = .error e → P s → E e s) :
    Triple P R (ofExcept x : M I O α) Q E B := by
  cases x with
  | ok a => exact ⟨fun s hs => by simp [Coro.ofExcept], fun s hs a s' h => by cases h; exact hQ _ s rfl hs, fun s hs e s' h => (by cases h),
      fun s hs s' h => (by cases h)⟩
  | error e => exact ⟨fun s hs => by simp [Coro.ofExcept], fun s hs a s' h => (by cases h), fun s hs e s' h => by cases h; exact hE _ s rfl hs,
      fun s hs s' h => (by cases h)⟩

theorem when {Q : Unit → Sim I O → Prop} (b : Bool) {x : M I O Unit} (h : b = true → Triple P R x Q E B) (hf : b = false → ∀ s, P s → Q () s) :
    Triple P R (when b x) Q E B := by
  cases b with
  | true => exact h rfl
  | false => exact pure () (hf rfl)

theorem ite {c : Prop} [Decidable c] {x y : M I O α} (hx : c → Triple P R x Q E B) (hy : ¬ c → Triple P R y Q E B) :
    Triple P R (if c then x else y) Q E B := by
  split
  · exact hx ‹_›
  · exact hy ‹_›

theorem iter {Inv : β → Sim I O → Prop} (body : β → M I O (β ⊕ α))
    (hb : ∀ b, Triple (Inv b) R (body b) (fun x s => match x with
      | .inl b' => Inv b' s
      | .inr a => Q a s) E B) (hB : ∀ b s, Inv b s → B s) (n : Nat) : ∀ b, Triple (Inv b) R (iter body n b) Q E B := by
  induction n with
  | zero => exact fun b => ⟨fun s hs => by simp [Coro.iter], fun s hs a s' h => (by cases h), fun s hs e s' h => (by cases h),
      fun s hs s' h => by cases h; exact hB b s hs⟩
  | succ n ih =>
    intro b
    refine bind (hb b) fun x => ?_
    cases x with
    | inl b' => exact ih b'
    | inr a => exact pure a (fun s hs => hs)

theorem loop {Inv : β → Sim I O → Prop} (body : β → M I O (β ⊕ α))
    (hb : ∀ b, Triple (Inv b) R (body b) (fun x s => match x with
      | .inl b' => Inv b' s
      | .inr a => Q a s) E B) (hB : ∀ b s, Inv b s → B s) (b : β) : Triple (Inv b) R (loop body b) Q E B :=
  ⟨fun s hs => (iter body hb hB _ b).records s hs, fun s hs => (iter body hb hB _ b).ok s hs, fun s hs => (iter body hb hB _ b).err s hs,
    fun s hs => (iter body hb hB _ b).blocked s hs⟩

theorem edges {Inv : Sim I O → Prop} (hR : ∀ s, Inv s → R (s.out, s.cur)) (hB : ∀ s, Inv s → B s)
    (hI : ∀ s i r, Inv s → s.rest = i :: r → Inv { s with phase := .edge, prev := s.cur, cur := i, rest := r }) (n : Nat) :
    Triple Inv R (edges n : M I O Unit) (fun _ s => Inv s) E B := by
  induction n with
  | zero => exact pure () (fun s hs => hs)
  | succ n ih => exact bind (awaitEdge (Q := fun _ s => Inv s) hR (fun s hs _ => hB s hs) hI) fun _ => ih

/-- waiting in ReadOnly changes nothing but the time -/
theorem waitRO {Inv : Sim I O → Prop} {Q : Unit → Sim I O → Prop} (test : I → Except PyErr Bool) (hP : ∀ s, P s → s.phase ≠ .ro ∧ Inv { s with phase := .ro })
    (hI : ∀ s i r, Inv s → s.rest = i :: r → Inv { s with phase := .ro, prev := s.cur, cur := i, rest := r })
    (hph : ∀ s, Inv s → s.phase = .ro) (hR : ∀ s, Inv s → test s.cur = .ok false → R (s.out, s.cur)) (hB : ∀ s, Inv s → B s)
    (hQ : ∀ s, Inv s → test s.cur = .ok true → Q () s) (hE : ∀ s e, Inv s → test s.cur = .error e → E e s) :
    Triple P R (Coro.waitRO test : M I O Unit) Q E B := by
  refine bind (S := fun _ s => Inv s) (readOnly (fun s hs => (hP s hs).1) (fun s hs => (hP s hs).2) true) fun _ => ?_
  refine loop (Inv := fun _ => Inv) _ (fun _ => ?_) (fun _ s hs => hB s hs) ()
  refine bind (S := fun i s => Inv s ∧ i = s.cur) (inp (fun s hs => ?_)) fun i => ?_
  · rw [hph s hs]; exact ⟨hs, rfl⟩
  refine bind (S := fun b s => Inv s ∧ test s.cur = .ok b) (ofExcept _ (fun a s h hs => ⟨hs.1, by rw [← hs.2]; exact h⟩)
    (fun e s h hs => hE s e hs.1 (by rw [← hs.2]; exact h))) fun b => ?_
  cases b with
  | true => exact pure _ (fun s hs => hQ s hs.1 hs.2)
  | false =>
    refine bind (S := fun _ s => s.phase = .edge ∧ Inv { s with phase := .ro }) (awaitEdge (fun s hs => hR s hs.1 hs.2) (fun s hs _ => hB s hs.1)
      (fun s i r hs hr => ⟨rfl, hI s i r hs.1 hr⟩)) fun _ => ?_
    refine bind (S := fun _ s => Inv s) (readOnly (fun s hs => by rw [hs.1]; decide) (fun s hs => hs.2) true) fun _ => ?_
    exact pure _ (fun s hs => hs)

/-- a postcondition that no state satisfies -/
theorem never {x : M I O α} (h : Triple P R x (fun _ _ => False) E B) (s : Sim I O) (hs : P s) (a : α) (s' : Sim I O) : (x s).2 ≠ .ok a s' :=
  fun he => h.ok s hs a s' he

end Triple
end CocotbBus
