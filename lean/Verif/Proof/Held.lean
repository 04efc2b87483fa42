import Verif.Proof.Coro
import Verif.Spec.Held

/-! # Triples about consecutive records -/

namespace CocotbBus.Hold
open Coro Spec
variable {I O α β W : Type}

/-- each record follows the one before it: `pend` means that what was driven then must still be driven -/
def Follows (what : O → W) (pend : O → I → Prop) (l : O) (li : I) : List (O × I) → Prop
  | [] => True
  | q :: r => (pend l li → what q.1 = what l) ∧ Follows what pend q.1 q.2 r

def lastOut (l : O) : List (O × I) → O
  | [] => l
  | q :: r => lastOut q.1 r

def lastIn (l : I) : List (O × I) → I
  | [] => l
  | q :: r => lastIn q.2 r

theorem lastOut_append (l : O) (a b : List (O × I)) : lastOut l (a ++ b) = lastOut (lastOut l a) b := by
  induction a generalizing l with
  | nil => rfl
  | cons q a ih => exact ih q.1

theorem lastIn_append (l : I) (a b : List (O × I)) : lastIn l (a ++ b) = lastIn (lastIn l a) b := by
  induction a generalizing l with
  | nil => rfl
  | cons q a ih => exact ih q.2

variable {what : O → W} {pend : O → I → Prop}

theorem follows_append (l : O) (li : I) (a b : List (O × I)) (h1 : Follows what pend l li a) (h2 : Follows what pend (lastOut l a) (lastIn li a) b) :
    Follows what pend l li (a ++ b) := by
  induction a generalizing l li with
  | nil => exact h2
  | cons q a ih => exact ⟨h1.1, ih q.1 q.2 h1.2 h2⟩

theorem follows_held (offers : O → Bool) (takes : I → Bool) (l : O) (li : I) (t : List (O × I))
    (h : Follows what (fun o i => offers o = true ∧ takes i = false) l li t) : Held offers takes what t := by
  induction t generalizing l li with
  | nil => intro n a b ha; cases ha
  | cons q t ih =>
    intro n a b ha hb ho ht
    cases n with
    | zero =>
      cases ha
      cases t with
      | nil => cases hb
      | cons q' t => cases hb; exact h.2.1 ⟨ho, ht⟩
    | succ n => exact ih q.1 q.2 h.2 n a b ha hb ho ht

/-- what is driven now is right if the next edge comes now -/
def Steady (what : O → W) (pend : O → I → Prop) (l : O) (s : Sim I O) : Prop := pend l s.prev → what s.out = what l

/-- From a state satisfying `P` (with what was driven at the last edge): every record follows the one before it, and the end satisfies `Q` (return),
`E` (exception) or is fine (still waiting). -/
structure HT (what : O → W) (pend : O → I → Prop) (P : O → Sim I O → Prop) (x : M I O α) (Q : α → O → Sim I O → Prop) (E : O → Sim I O → Prop) : Prop where
  follows : ∀ l s, P l s → Follows what pend l s.prev (x s).1
  prev : ∀ l s, P l s → (x s).2.sim.prev = lastIn s.prev (x s).1
  paced : ∀ l s, P l s → s.cur :: s.rest = (x s).1.map Prod.snd ++ (x s).2.sim.cur :: (x s).2.sim.rest
  ok : ∀ l s, P l s → ∀ a s', (x s).2 = .ok a s' → Q a (lastOut l (x s).1) s'
  err : ∀ l s, P l s → ∀ e s', (x s).2 = .err e s' → E (lastOut l (x s).1) s'
  blocked : ∀ l s, P l s → ∀ s', (x s).2 = .blocked s' → Steady what pend (lastOut l (x s).1) s'

variable {P : O → Sim I O → Prop} {Q : α → O → Sim I O → Prop} {E : O → Sim I O → Prop}

namespace HT

theorem weaken {P' : O → Sim I O → Prop} {Q' : α → O → Sim I O → Prop} {x : M I O α} (h : HT what pend P x Q E) (hP : ∀ l s, P' l s → P l s)
    (hQ : ∀ a l s, Q a l s → Q' a l s) : HT what pend P' x Q' E :=
  ⟨fun l s hs => h.follows l s (hP l s hs), fun l s hs => h.prev l s (hP l s hs), fun l s hs => h.paced l s (hP l s hs), fun l s hs a s' he => hQ a _ s' (h.ok l s (hP l s hs) a s' he),
    fun l s hs => h.err l s (hP l s hs), fun l s hs => h.blocked l s (hP l s hs)⟩

theorem never {x : M I O α} (h : ∀ l s, ¬ P l s) : HT what pend P x Q E :=
  ⟨fun l s hs => absurd hs (h l s), fun l s hs => absurd hs (h l s), fun l s hs => absurd hs (h l s), fun l s hs => absurd hs (h l s), fun l s hs => absurd hs (h l s), fun l s hs => absurd hs (h l s)⟩

theorem hang (h : ∀ l s, P l s → Steady what pend l s) : HT what pend P (hang : M I O α) Q E :=
  ⟨fun _ _ _ => trivial, fun _ _ _ => rfl, fun _ _ _ => rfl, fun _ _ _ _ _ h => (by cases h), fun _ _ _ _ _ h => (by cases h), fun l s hs s' he => by cases he; exact h l s hs⟩

theorem err_weaken {E' : O → Sim I O → Prop} {x : M I O α} (h : HT what pend P x Q E) (hE : ∀ l s, E l s → E' l s) : HT what pend P x Q E' :=
  ⟨h.follows, h.prev, h.paced, h.ok, fun l s hs e s' he => hE _ s' (h.err l s hs e s' he), h.blocked⟩

/-- something that takes no time -/
theorem silent {x : M I O α} (h : ∀ l s, P l s → (∃ a s', x s = ([], .ok a s') ∧ (s'.prev = s.prev ∧ s'.cur = s.cur ∧ s'.rest = s.rest) ∧ Q a l s') ∨
    (∃ e s', x s = ([], .err e s') ∧ (s'.prev = s.prev ∧ s'.cur = s.cur ∧ s'.rest = s.rest) ∧ E l s')) : HT what pend P x Q E := by
  refine ⟨fun l s hs => ?_, fun l s hs => ?_, fun l s hs => ?_, fun l s hs => ?_, fun l s hs => ?_, fun l s hs => ?_⟩ <;>
  · rcases h l s hs with ⟨a, s', hx, hp, hq⟩ | ⟨e, s', hx, hp, hq⟩ <;> rw [hx] <;>
    first
    | trivial
    | exact hp.1
    | (show s.cur :: s.rest = [] ++ s'.cur :: s'.rest; rw [hp.2.1, hp.2.2]; rfl)
    | (intro a s' h; cases h; exact hq)
    | (intro a s' h; cases h; done)
    | (intro s' h; cases h; done)

theorem pure (a : α) (h : ∀ l s, P l s → Q a l s) : HT what pend P (pure a : M I O α) Q E :=
  silent fun l s hs => .inl ⟨a, s, rfl, ⟨rfl, rfl, rfl⟩, h l s hs⟩

theorem raise (e : PyErr) (h : ∀ l s, P l s → E l s) : HT what pend P (raise e : M I O α) Q E :=
  silent fun l s hs => .inr ⟨e, s, rfl, ⟨rfl, rfl, rfl⟩, h l s hs⟩

theorem bind {S : β → O → Sim I O → Prop} {x : M I O β} {f : β → M I O α} (hx : HT what pend P x S E)
    (hf : ∀ b, HT what pend (S b) (f b) Q E) : HT what pend P (x >>= f) Q E := by
  refine ⟨fun l s hs => ?_, fun l s hs => ?_, fun l s hs => ?_, fun l s hs => ?_, fun l s hs => ?_, fun l s hs => ?_⟩ <;>
  · have h0 := hx.follows l s hs
    have h1 := hx.prev l s hs
    have hpc := hx.paced l s hs
    have h2 := hx.ok l s hs
    have h3 := hx.err l s hs
    have h4 := hx.blocked l s hs
    rw [bind_run]
    cases hr : x s with
    | mk t e =>
      rw [hr] at h0 h1 h2 h3 h4 hpc
      cases e with
      | ok b s' =>
        have hb := h2 b s' rfl
        have hp : s'.prev = lastIn s.prev t := h1
        rw [andThen_ok]
        first
        | exact follows_append _ _ _ _ h0 (hp ▸ (hf b).follows _ s' hb)
        | exact (((hf b).prev _ s' hb).trans (by rw [hp, ← lastIn_append]))
        | exact hpc.trans (by rw [show (End.ok b s').sim.cur :: (End.ok b s').sim.rest = _ from (hf b).paced _ s' hb]; simp)
        | (intro a s2 h; rw [lastOut_append]; exact (hf b).ok _ s' hb a s2 h)
        | (intro a s2 h; rw [lastOut_append]; exact (hf b).err _ s' hb a s2 h)
        | (intro s2 h; rw [lastOut_append]; exact (hf b).blocked _ s' hb s2 h)
      | err e s' =>
        first
        | exact h0
        | exact h1
        | exact hpc
        | (intro e' s2 h; cases h; exact h3 _ _ rfl)
        | (intro e' s2 h; cases h; done)
        | (intro s2 h; cases h; done)
      | blocked s' =>
        first
        | exact h0
        | exact h1
        | exact hpc
        | (intro s2 h; cases h; exact h4 _ rfl)
        | (intro e' s2 h; cases h; done)

theorem awaitEdge {Q : Unit → O → Sim I O → Prop} (hF : ∀ l s, P l s → Steady what pend l s)
    (hQ : ∀ l s i r, P l s → s.rest = i :: r → Q () s.out { s with phase := .edge, prev := s.cur, cur := i, rest := r }) :
    HT what pend P (awaitEdge : M I O Unit) Q E := by
  refine ⟨fun l s hs => ?_, fun l s hs => ?_, fun l s hs => ?_, fun l s hs => ?_, fun l s hs => ?_, fun l s hs => ?_⟩ <;>
  · cases hr : s.rest with
    | nil =>
      rw [awaitEdge_nil s hr]
      first
      | trivial
      | rfl
      | (show [s.cur] = s.cur :: s.rest; rw [hr])
      | (intro s' h; cases h; exact hF l s hs)
      | (intro a s' h; cases h; done)
    | cons i r =>
      rw [awaitEdge_cons s i r hr]
      first
      | exact ⟨hF l s hs, trivial⟩
      | rfl
      | (rw [hr]; rfl)
      | (intro a s' h; cases h; exact hQ l s i r hs hr)
      | (intro a s' h; cases h; done)
      | (intro s' h; cases h; done)

theorem write {Q : Unit → O → Sim I O → Prop} (f : O → O) (hQ : ∀ l s, P l s → s.phase ≠ .ro → Q () l { s with out := f s.out })
    (hE : ∀ l s, P l s → s.phase = .ro → E l s) : HT what pend P (write f : M I O Unit) Q E := by
  refine silent fun l s hs => ?_
  by_cases h : s.phase = .ro
  · exact .inr ⟨.readOnlyWrite, s, by unfold Coro.write; rw [if_pos h], ⟨rfl, rfl, rfl⟩, hE l s hs h⟩
  · exact .inl ⟨(), _, write_ok f s h, ⟨rfl, rfl, rfl⟩, hQ l s hs h⟩

theorem readOnly {Q : Unit → O → Sim I O → Prop} (b : Bool) (hQ : ∀ l s, P l s → Q () l { s with phase := .ro })
    (hE : ∀ l s, P l s → s.phase = .ro → E l s) : HT what pend P (readOnly b : M I O Unit) Q E := by
  refine silent fun l s hs => ?_
  by_cases h : b = true ∧ s.phase = .ro
  · exact .inr ⟨.readOnlyAwait, s, by unfold Coro.readOnly; rw [if_pos h], ⟨rfl, rfl, rfl⟩, hE l s hs h.2⟩
  · exact .inl ⟨(), { s with phase := .ro }, by unfold Coro.readOnly; rw [if_neg h], ⟨rfl, rfl, rfl⟩, hQ l s hs⟩

theorem nextStep {Q : Unit → O → Sim I O → Prop} (hQ : ∀ l s, P l s → Q () l { s with phase := .mid }) :
    HT what pend P (nextStep : M I O Unit) Q E := silent fun l s hs => .inl ⟨(), _, rfl, ⟨rfl, rfl, rfl⟩, hQ l s hs⟩

theorem setPy {Q : Unit → O → Sim I O → Prop} (f : O → O) (hQ : ∀ l s, P l s → Q () l { s with out := f s.out }) :
    HT what pend P (setPy f : M I O Unit) Q E := silent fun l s hs => .inl ⟨(), _, rfl, ⟨rfl, rfl, rfl⟩, hQ l s hs⟩

theorem getOut {Q : O → O → Sim I O → Prop} (hQ : ∀ l s, P l s → Q s.out l s) :
    HT what pend P (getOut : M I O O) Q E := silent fun l s hs => .inl ⟨_, _, rfl, ⟨rfl, rfl, rfl⟩, hQ l s hs⟩

theorem inp {Q : I → O → Sim I O → Prop} (hQ : ∀ l s, P l s → Q (match s.phase with
  | .edge => s.prev
  | _ => s.cur) l s) : HT what pend P (inp : M I O I) Q E := silent fun l s hs => .inl ⟨_, _, rfl, ⟨rfl, rfl, rfl⟩, hQ l s hs⟩

theorem ofExcept (x : Except PyErr α) (hQ : ∀ a l s, x = .ok a → P l s → Q a l s) (hE : ∀ e l s, x = .error e → P l s → E l s) :
    HT what pend P (ofExcept x : M I O α) Q E := by
  refine silent fun l s hs => ?_
  cases hx : x with
  | ok a => exact .inl ⟨a, s, rfl, ⟨rfl, rfl, rfl⟩, hQ a l s hx hs⟩
  | error e => exact .inr ⟨e, s, rfl, ⟨rfl, rfl, rfl⟩, hE e l s hx hs⟩

theorem when {Q : Unit → O → Sim I O → Prop} (b : Bool) {x : M I O Unit} (h : b = true → HT what pend P x Q E)
    (hf : b = false → ∀ l s, P l s → Q () l s) : HT what pend P (when b x) Q E := by
  cases b with
  | true => exact h rfl
  | false => exact pure () (hf rfl)

theorem ite {c : Prop} [Decidable c] {x y : M I O α} (hx : c → HT what pend P x Q E) (hy : ¬ c → HT what pend P y Q E) :
    HT what pend P (if c then x else y) Q E := by
  split
  · exact hx ‹_›
  · exact hy ‹_›

theorem iter {Inv : β → O → Sim I O → Prop} (body : β → M I O (β ⊕ α))
    (hb : ∀ b, HT what pend (Inv b) (body b) (fun x l s => match x with
      | .inl b' => Inv b' l s
      | .inr a => Q a l s) E) (hF : ∀ b l s, Inv b l s → Steady what pend l s) (n : Nat) : ∀ b, HT what pend (Inv b) (iter body n b) Q E := by
  induction n with
  | zero => exact fun b => ⟨fun l s hs => trivial, fun l s hs => rfl, fun l s hs => rfl, fun l s hs a s' h => (by cases h), fun l s hs e s' h => (by cases h),
      fun l s hs s' h => by cases h; exact hF b l s hs⟩
  | succ n ih =>
    intro b
    refine bind (hb b) fun x => ?_
    cases x with
    | inl b' => exact ih b'
    | inr a => exact pure a (fun l s hs => hs)

theorem loop {Inv : β → O → Sim I O → Prop} (body : β → M I O (β ⊕ α))
    (hb : ∀ b, HT what pend (Inv b) (body b) (fun x l s => match x with
      | .inl b' => Inv b' l s
      | .inr a => Q a l s) E) (hF : ∀ b l s, Inv b l s → Steady what pend l s) (b : β) : HT what pend (Inv b) (loop body b) Q E :=
  ⟨fun l s hs => (iter body hb hF _ b).follows l s hs, fun l s hs => (iter body hb hF _ b).prev l s hs, fun l s hs => (iter body hb hF _ b).paced l s hs, fun l s hs => (iter body hb hF _ b).ok l s hs,
    fun l s hs => (iter body hb hF _ b).err l s hs, fun l s hs => (iter body hb hF _ b).blocked l s hs⟩

theorem edges {Inv : O → Sim I O → Prop} (hF : ∀ l s, Inv l s → Steady what pend l s)
    (hI : ∀ l s i r, Inv l s → s.rest = i :: r → Inv s.out { s with phase := .edge, prev := s.cur, cur := i, rest := r }) (n : Nat) :
    HT what pend Inv (edges n : M I O Unit) (fun _ l s => Inv l s) E := by
  induction n with
  | zero => exact pure () (fun l s hs => hs)
  | succ n ih => exact bind (awaitEdge (Q := fun _ l s => Inv l s) hF hI) fun _ => ih

/-- waiting in ReadOnly for the test to be met; `J` is about what is driven -/
theorem waitRO {J : O → Prop} {Q : Unit → O → Sim I O → Prop} (test : I → Except PyErr Bool) (hP : ∀ l s, P l s → Steady what pend l s ∧ J s.out)
    (hR : ∀ l s, P l s → s.phase = .ro → E l s)
    (hQ : ∀ l s, Steady what pend l s → J s.out → s.phase = .ro → test s.cur = .ok true → Q () l s)
    (hE : ∀ l s e, Steady what pend l s → J s.out → test s.cur = .error e → E l s) : HT what pend P (Coro.waitRO test : M I O Unit) Q E := by
  refine bind (S := fun _ l s => (Steady what pend l s ∧ J s.out) ∧ s.phase = .ro) (readOnly true (fun l s hs => ⟨hP l s hs, rfl⟩) hR) fun _ => ?_
  refine loop (Inv := fun _ l s => (Steady what pend l s ∧ J s.out) ∧ s.phase = .ro) _ (fun _ => ?_) (fun _ l s hs => hs.1.1) ()
  refine bind (S := fun i l s => ((Steady what pend l s ∧ J s.out) ∧ s.phase = .ro) ∧ i = s.cur) (inp (fun l s hs => ?_)) fun i => ?_
  · exact ⟨hs, by rw [hs.2]⟩
  refine bind (S := fun b l s => ((Steady what pend l s ∧ J s.out) ∧ s.phase = .ro) ∧ test s.cur = .ok b) (ofExcept _
    (fun a l s h hs => ⟨hs.1, by rw [← hs.2]; exact h⟩) (fun e l s h hs => hE l s e hs.1.1.1 hs.1.1.2 (by rw [← hs.2]; exact h))) fun b => ?_
  cases b with
  | true => exact pure _ (fun l s hs => hQ l s hs.1.1.1 hs.1.1.2 hs.1.2 hs.2)
  | false =>
    refine bind (S := fun _ l s => (Steady what pend l s ∧ J s.out) ∧ s.phase = .edge) (awaitEdge (fun l s hs => hs.1.1.1)
      (fun l s i r hs hr => ⟨⟨fun _ => rfl, hs.1.1.2⟩, rfl⟩)) fun _ => ?_
    refine bind (S := fun _ l s => (Steady what pend l s ∧ J s.out) ∧ s.phase = .ro) (readOnly true (fun l s hs => ⟨hs.1, rfl⟩)
      (fun l s hs h => by rw [hs.2] at h; cases h)) fun _ => ?_
    exact pure _ (fun l s hs => hs)

/-- waiting for a signal to be 0 -/
theorem waitN {Q : Unit → O → Sim I O → Prop} {J : O → Prop} (f : I → Logic) (hP : ∀ l s, P l s → Steady what pend l s ∧ J s.out)
    (hQ : ∀ l s, Steady what pend l s → J s.out → f s.cur = .zero → s.phase = .mid → Q () l s)
    (hE : ∀ l s, Steady what pend l s → J s.out → E l s) : HT what pend P (Coro.waitN f : M I O Unit) Q E := by
  refine bind (S := fun _ l s => (Steady what pend l s ∧ J s.out) ∧ s.phase = .ro) (readOnly true (fun l s hs => ⟨hP l s hs, rfl⟩)
    (fun l s hs _ => hE l s (hP l s hs).1 (hP l s hs).2)) fun _ => ?_
  refine bind (S := fun _ l s => ((Steady what pend l s ∧ J s.out) ∧ s.phase = .ro) ∧ f s.cur = .zero)
    (loop (Inv := fun _ l s => (Steady what pend l s ∧ J s.out) ∧ s.phase = .ro) _ (fun _ => ?_) (fun _ l s hs => hs.1.1) ()) fun _ =>
    nextStep (fun l s hs => hQ l _ hs.1.1.1 hs.1.1.2 hs.2 rfl)
  refine bind (S := fun i l s => ((Steady what pend l s ∧ J s.out) ∧ s.phase = .ro) ∧ i = s.cur) (inp (fun l s hs => ?_)) fun i => ?_
  · exact ⟨hs, by rw [hs.2]⟩
  refine bind (S := fun n l s => ((Steady what pend l s ∧ J s.out) ∧ s.phase = .ro) ∧ intOf (f s.cur) = .ok n) (ofExcept _
    (fun a l s h hs => ⟨hs.1, by rw [← hs.2]; exact h⟩) (fun e l s h hs => hE l s hs.1.1.1 hs.1.1.2)) fun n => ?_
  refine ite (fun h => pure _ (fun l s hs => ⟨hs.1, ?_⟩)) (fun _ => ?_)
  · have := hs.2
    rw [h] at this
    unfold intOf at this
    split at this
    · assumption
    · cases this
    · cases this
  · refine bind (S := fun _ l s => (Steady what pend l s ∧ J s.out) ∧ s.phase = .mid) ?_ fun _ =>
      bind (S := fun _ l s => (Steady what pend l s ∧ J s.out) ∧ s.phase = .ro) (readOnly true (fun l s hs => ⟨hs.1, rfl⟩)
        (fun l s hs _ => hE l s hs.1.1 hs.1.2)) fun _ => pure _ (fun l s hs => hs)
    refine bind (S := fun _ l s => Steady what pend l s ∧ J s.out) (inp (fun l s hs => hs.1.1)) fun i => ?_
    refine loop (Inv := fun _ l s => Steady what pend l s ∧ J s.out) _ (fun _ => ?_) (fun _ l s hs => hs.1) ()
    refine bind (S := fun _ l s => Steady what pend l s ∧ J s.out) (awaitEdge (fun l s hs => hs.1) (fun l s i r hs _ => ⟨fun _ => rfl, hs.2⟩)) fun _ => ?_
    refine bind (S := fun _ l s => (Steady what pend l s ∧ J s.out) ∧ s.phase = .mid) (nextStep (fun l s hs => ⟨hs, rfl⟩)) fun _ => ?_
    refine bind (S := fun _ l s => (Steady what pend l s ∧ J s.out) ∧ s.phase = .mid) (inp (fun l s hs => hs)) fun j => ?_
    by_cases h : f j = f i
    · rw [if_pos h]; exact pure _ (fun l s hs => hs.1)
    · rw [if_neg h]; exact pure _ (fun l s hs => hs)

end HT
end CocotbBus.Hold
