import Verif.Proof.Coro

/-! # Properties of neighbouring records of a coroutine's trace

A ghost value is updated at every record; each record must be acceptable after the ghost value before it.
-/

namespace CocotbBus
open Coro
variable {I O α β γ : Type}

/-- every record is acceptable after the ghost value before it -/
def Walk (upd : γ → O × I → γ) (acc : γ → O × I → Prop) : γ → List (O × I) → Prop
  | _, [] => True
  | g, r :: t => acc g r ∧ Walk upd acc (upd g r) t

theorem walk_append (upd : γ → O × I → γ) (acc : γ → O × I → Prop) (t u : List (O × I)) : ∀ g,
    Walk upd acc g (t ++ u) ↔ Walk upd acc g t ∧ Walk upd acc (t.foldl upd g) u := by
  induction t with
  | nil => intro g; simp [Walk]
  | cons r t ih => intro g; simp only [List.cons_append, Walk, ih, List.foldl_cons, and_assoc]

/-- From `P`, the trace is acceptable, and a return ends in `Q`. -/
def GTriple (upd : γ → O × I → γ) (acc : γ → O × I → Prop) (P : γ → Sim I O → Prop) (x : M I O α) (Q : α → γ → Sim I O → Prop) : Prop :=
  ∀ g s, P g s → Walk upd acc g (x s).1 ∧ ∀ a s', (x s).2 = .ok a s' → Q a ((x s).1.foldl upd g) s'

variable {upd : γ → O × I → γ} {acc : γ → O × I → Prop} {P : γ → Sim I O → Prop} {Q : α → γ → Sim I O → Prop}

namespace GTriple

theorem weaken {P' : γ → Sim I O → Prop} {Q' : α → γ → Sim I O → Prop} {x : M I O α} (h : GTriple upd acc P x Q) (hP : ∀ g s, P' g s → P g s)
    (hQ : ∀ a g s, Q a g s → Q' a g s) : GTriple upd acc P' x Q' :=
  fun g s hs => ⟨(h g s (hP g s hs)).1, fun a s' he => hQ _ _ _ ((h g s (hP g s hs)).2 a s' he)⟩

theorem pure (a : α) (h : ∀ g s, P g s → Q a g s) : GTriple upd acc P (pure a : M I O α) Q := by
  intro g s hs
  rw [pure_run]
  exact ⟨trivial, fun a' s' he => by cases he; exact h g s hs⟩

theorem raise (e : PyErr) : GTriple upd acc P (Coro.raise e : M I O α) Q :=
  fun _ _ _ => ⟨trivial, fun _ _ he => by cases he⟩

theorem bind {S : β → γ → Sim I O → Prop} {x : M I O β} {f : β → M I O α} (hx : GTriple upd acc P x S)
    (hf : ∀ b, GTriple upd acc (S b) (f b) Q) : GTriple upd acc P (x >>= f) Q := by
  intro g s hs
  obtain ⟨h1, h2⟩ := hx g s hs
  rw [bind_run]
  cases hr : x s with
  | mk t e =>
    rw [hr] at h1 h2
    cases e with
    | ok b s' =>
      obtain ⟨h3, h4⟩ := hf b _ s' (h2 b s' rfl)
      rw [andThen_ok]
      refine ⟨(walk_append _ _ _ _ _).2 ⟨h1, h3⟩, fun a s2 he => ?_⟩
      have := h4 a s2 he
      simpa [List.foldl_append] using this
    | err e s' => exact ⟨h1, fun a s2 he => by cases he⟩
    | blocked s' => exact ⟨h1, fun a s2 he => by cases he⟩

theorem awaitEdge {Q : Unit → γ → Sim I O → Prop} (hR : ∀ g s, P g s → acc g (s.out, s.cur))
    (hQ : ∀ g s i r, P g s → Q () (upd g (s.out, s.cur)) { s with phase := .edge, prev := s.cur, cur := i, rest := r }) :
    GTriple upd acc P (Coro.awaitEdge : M I O Unit) Q := by
  intro g s hs
  cases hr : s.rest with
  | nil => rw [awaitEdge_nil s hr]; exact ⟨trivial, fun a s2 he => by cases he⟩
  | cons i r =>
    rw [awaitEdge_cons s i r hr]
    exact ⟨⟨hR g s hs, trivial⟩, fun a s2 he => by cases he; exact hQ g s i r hs⟩

theorem write {Q : Unit → γ → Sim I O → Prop} (f : O → O) (hP : ∀ g s, P g s → s.phase ≠ .ro)
    (hQ : ∀ g s, P g s → Q () g { s with out := f s.out }) : GTriple upd acc P (Coro.write f : M I O Unit) Q := by
  intro g s hs
  rw [write_ok f s (hP g s hs)]
  exact ⟨trivial, fun a s2 he => by cases he; exact hQ g s hs⟩

theorem readOnly {Q : Unit → γ → Sim I O → Prop} (b : Bool) (hQ : ∀ g s, P g s → Q () g { s with phase := .ro }) :
    GTriple upd acc P (Coro.readOnly b : M I O Unit) Q := by
  intro g s hs
  unfold Coro.readOnly
  split
  · exact ⟨trivial, fun a s2 he => by cases he⟩
  · exact ⟨trivial, fun a s2 he => by cases he; exact hQ g s hs⟩

theorem inp {Q : I → γ → Sim I O → Prop} (hQ : ∀ g s, P g s → Q (match s.phase with
  | .edge => s.prev
  | _ => s.cur) g s) : GTriple upd acc P (Coro.inp : M I O I) Q :=
  fun g s hs => ⟨trivial, fun a s2 he => by cases he; exact hQ g s hs⟩

theorem ofExcept (x : Except PyErr α) (hQ : ∀ a g s, x = .ok a → P g s → Q a g s) : GTriple upd acc P (Coro.ofExcept x : M I O α) Q := by
  intro g s hs
  cases x with
  | ok a => exact ⟨trivial, fun a s2 he => by cases he; exact hQ _ g s rfl hs⟩
  | error e => exact ⟨trivial, fun a s2 he => by cases he⟩

theorem when {Q : Unit → γ → Sim I O → Prop} (b : Bool) {x : M I O Unit} (h : b = true → GTriple upd acc P x Q)
    (hf : b = false → ∀ g s, P g s → Q () g s) : GTriple upd acc P (Coro.when b x) Q := by
  cases b with
  | true => exact h rfl
  | false => exact pure () (hf rfl)

theorem iter {Inv : β → γ → Sim I O → Prop} (body : β → M I O (β ⊕ α))
    (hb : ∀ b, GTriple upd acc (Inv b) (body b) (fun x g s => match x with
      | .inl b' => Inv b' g s
      | .inr a => Q a g s)) (n : Nat) : ∀ b, GTriple upd acc (Inv b) (Coro.iter body n b) Q := by
  induction n with
  | zero => exact fun b g s _ => ⟨trivial, fun a s2 he => by cases he⟩
  | succ n ih =>
    intro b
    refine bind (hb b) fun x => ?_
    cases x with
    | inl b' => exact ih b'
    | inr a => exact pure a (fun g s hs => hs)

theorem loop {Inv : β → γ → Sim I O → Prop} (body : β → M I O (β ⊕ α))
    (hb : ∀ b, GTriple upd acc (Inv b) (body b) (fun x g s => match x with
      | .inl b' => Inv b' g s
      | .inr a => Q a g s)) (b : β) : GTriple upd acc (Inv b) (Coro.loop body b) Q :=
  fun g s hs => iter body hb _ b g s hs

theorem edges {Inv : γ → Sim I O → Prop} (hR : ∀ g s, Inv g s → acc g (s.out, s.cur))
    (hI : ∀ g s i r, Inv g s → Inv (upd g (s.out, s.cur)) { s with phase := .edge, prev := s.cur, cur := i, rest := r }) (n : Nat) :
    GTriple upd acc Inv (Coro.edges n : M I O Unit) (fun _ => Inv) := by
  induction n with
  | zero => exact pure () (fun g s hs => hs)
  | succ n ih => exact bind (awaitEdge (Q := fun _ => Inv) hR hI) fun _ => ih

/-- waiting in ReadOnly: `Inv` holds in every ReadOnly phase in which the wait is not over -/
theorem waitRO {Inv : γ → Sim I O → Prop} {Q : Unit → γ → Sim I O → Prop} (test : I → Except PyErr Bool) (hP : ∀ g s, P g s → Inv g { s with phase := .ro })
    (hph : ∀ g s, Inv g s → s.phase = .ro) (hR : ∀ g s, Inv g s → test s.cur = .ok false → acc g (s.out, s.cur))
    (hI : ∀ g s i r, Inv g s → test s.cur = .ok false → Inv (upd g (s.out, s.cur)) { s with phase := .ro, prev := s.cur, cur := i, rest := r })
    (hQ : ∀ g s, Inv g s → test s.cur = .ok true → Q () g s) :
    GTriple upd acc P (Coro.waitRO test : M I O Unit) Q := by
  refine bind (S := fun _ => Inv) (readOnly true (fun g s hs => hP g s hs)) fun _ => ?_
  refine loop (Inv := fun _ => Inv) _ (fun _ => ?_) ()
  refine bind (S := fun i g s => Inv g s ∧ i = s.cur) (inp (fun g s hs => ?_)) fun i => ?_
  · rw [hph g s hs]; exact ⟨hs, rfl⟩
  refine bind (S := fun b g s => Inv g s ∧ test s.cur = .ok b) (ofExcept _ (fun a g s h hs => ⟨hs.1, by rw [← hs.2]; exact h⟩)) fun b => ?_
  cases b with
  | true => exact pure _ (fun g s hs => hQ g s hs.1 hs.2)
  | false =>
    refine bind (S := fun _ g s => Inv g { s with phase := .ro }) (awaitEdge (fun g s hs => hR g s hs.1 hs.2)
      (fun g s i r hs => hI g s i r hs.1 hs.2)) fun _ => ?_
    refine bind (S := fun _ => Inv) (readOnly true (fun g s hs => hs)) fun _ => ?_
    exact pure _ (fun g s hs => hs)

end GTriple
end CocotbBus
