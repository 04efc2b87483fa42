import Verif.Model.Coro

/-! # Lemmas about coroutines -/

namespace CocotbBus
variable {I O α β γ : Type}
open Coro

theorem pure_run (a : α) (s : Sim I O) : (pure a : M I O α) s = ([], .ok a s) := rfl
theorem bind_run (x : M I O α) (f : α → M I O β) (s : Sim I O) : (x >>= f) s = (x s).andThen f := rfl

@[simp] theorem andThen_ok (t : List (O × I)) (a : α) (s : Sim I O) (f : α → M I O β) :
    Res.andThen (t, .ok a s) f = (t ++ (f a s).1, (f a s).2) := rfl
@[simp] theorem andThen_err (t : List (O × I)) (e : PyErr) (s : Sim I O) (f : α → M I O β) :
    Res.andThen (t, .err e s) f = (t, .err e s) := rfl
@[simp] theorem andThen_blocked (t : List (O × I)) (s : Sim I O) (f : α → M I O β) :
    Res.andThen (t, .blocked s) f = (t, .blocked s) := rfl

theorem andThen_nil_ok (a : α) (s : Sim I O) (f : α → M I O β) :
    Res.andThen ([], .ok a s) f = f a s := by simp [Res.andThen]

/-- a primitive that emits nothing and succeeds -/
theorem bind_silent (x : M I O α) (f : α → M I O β) (s s' : Sim I O) (a : α) (h : x s = ([], .ok a s')) :
    (x >>= f) s = f a s' := by rw [bind_run, h, andThen_nil_ok]

theorem inp_edge (s : Sim I O) (h : s.phase = .edge) : (inp : M I O I) s = ([], .ok s.prev s) := by simp [inp, h]
theorem inp_ro (s : Sim I O) (h : s.phase = .ro) : (inp : M I O I) s = ([], .ok s.cur s) := by simp [inp, h]
theorem inp_mid (s : Sim I O) (h : s.phase = .mid) : (inp : M I O I) s = ([], .ok s.cur s) := by simp [inp, h]

theorem write_ok (f : O → O) (s : Sim I O) (h : s.phase ≠ .ro) :
    (write f : M I O Unit) s = ([], .ok () { s with out := f s.out }) := by simp [write, h]
theorem write_ro (f : O → O) (s : Sim I O) (h : s.phase = .ro) :
    (write f : M I O Unit) s = ([], .err .readOnlyWrite s) := by simp [write, h]

theorem readOnly_ok (b : Bool) (s : Sim I O) (h : s.phase ≠ .ro) :
    (readOnly b : M I O Unit) s = ([], .ok () { s with phase := .ro }) := by simp [readOnly, h]

theorem awaitEdge_nil (s : Sim I O) (h : s.rest = []) : (awaitEdge : M I O Unit) s = ([], .blocked s) := by
  simp [awaitEdge, h]
theorem awaitEdge_cons (s : Sim I O) (i : I) (r : List I) (h : s.rest = i :: r) :
    (awaitEdge : M I O Unit) s =
      ([(s.out, s.cur)], .ok () { s with phase := .edge, prev := s.cur, cur := i, rest := r }) := by
  simp [awaitEdge, h]

theorem bind_write (f : O → O) (k : Unit → M I O β) (s : Sim I O) (h : s.phase ≠ .ro) :
    (write f >>= k) s = k () { s with out := f s.out } := bind_silent _ _ _ _ _ (write_ok f s h)
theorem bind_readOnly (b : Bool) (k : Unit → M I O β) (s : Sim I O) (h : s.phase ≠ .ro) :
    (readOnly b >>= k) s = k () { s with phase := .ro } := bind_silent _ _ _ _ _ (readOnly_ok b s h)
theorem bind_nextStep (k : Unit → M I O β) (s : Sim I O) :
    (nextStep >>= k) s = k () { s with phase := .mid } := bind_silent _ _ _ _ _ rfl
theorem bind_inp_edge (k : I → M I O β) (s : Sim I O) (h : s.phase = .edge) :
    (inp >>= k) s = k s.prev s := bind_silent _ _ _ _ _ (inp_edge s h)
theorem bind_inp_ro (k : I → M I O β) (s : Sim I O) (h : s.phase = .ro) :
    (inp >>= k) s = k s.cur s := bind_silent _ _ _ _ _ (inp_ro s h)
theorem bind_inp_mid (k : I → M I O β) (s : Sim I O) (h : s.phase = .mid) :
    (inp >>= k) s = k s.cur s := bind_silent _ _ _ _ _ (inp_mid s h)
theorem bind_pure_run (a : α) (k : α → M I O β) (s : Sim I O) :
    ((pure a : M I O α) >>= k) s = k a s := bind_silent _ _ _ _ _ rfl
theorem bind_awaitEdge_nil (k : Unit → M I O β) (s : Sim I O) (h : s.rest = []) :
    (awaitEdge >>= k) s = ([], .blocked s) := by rw [bind_run, awaitEdge_nil s h]; rfl
theorem bind_awaitEdge_cons (k : Unit → M I O β) (s : Sim I O) (i : I) (r : List I) (h : s.rest = i :: r) :
    (awaitEdge >>= k) s =
      ((s.out, s.cur) :: (k () { s with phase := .edge, prev := s.cur, cur := i, rest := r }).1,
       (k () { s with phase := .edge, prev := s.cur, cur := i, rest := r }).2) := by
  rw [bind_run, awaitEdge_cons s i r h]; rfl

theorem andThen_assoc (r : Res I O α) (f : α → M I O β) (g : β → M I O γ) :
    (r.andThen f).andThen g = r.andThen (fun a => f a >>= g) := by
  obtain ⟨t, e⟩ := r
  cases e with
  | ok a s =>
    simp only [andThen_ok, bind_run]
    cases h : (f a s).2 with
    | ok b s' =>
      have : f a s = ((f a s).1, .ok b s') := by rw [← h]
      rw [this]; simp
    | err e s' =>
      have : f a s = ((f a s).1, .err e s') := by rw [← h]
      rw [this]; simp
    | blocked s' =>
      have : f a s = ((f a s).1, .blocked s') := by rw [← h]
      rw [this]; simp
  | err e s => rfl
  | blocked s => rfl

theorem bind_assoc_run (x : M I O α) (f : α → M I O β) (g : β → M I O γ) (s : Sim I O) :
    ((x >>= f) >>= g) s = (x >>= fun a => f a >>= g) s := by
  rw [bind_run, bind_run, bind_run, andThen_assoc]

instance : LawfulMonad (M I O) := LawfulMonad.mk'
  (id_map := fun x => by
    funext s
    show (x >>= fun a => pure a) s = x s
    rw [bind_run]
    cases h : x s with
    | mk t e => cases e <;> simp [pure_run])
  (pure_bind := fun a f => by funext s; exact bind_silent _ _ _ _ _ rfl)
  (bind_assoc := fun x f g => by funext s; exact bind_assoc_run x f g s)

/-! ### Loops -/

/-- every continuing iteration of `body` uses up a cycle (in states satisfying nothing in particular) -/
def Consumes (body : β → M I O (β ⊕ α)) : Prop :=
  ∀ b s t b' s', body b s = (t, .ok (.inl b') s') → s'.rest.length < s.rest.length

theorem iter_enough (body : β → M I O (β ⊕ α)) (hb : Consumes body) (n : Nat) :
    ∀ (m : Nat) (b : β) (s : Sim I O), s.rest.length < n → s.rest.length < m → iter body n b s = iter body m b s := by
  induction n with
  | zero => intro m b s h; omega
  | succ n ih =>
    intro m b s h1 h2
    cases m with
    | zero => omega
    | succ m =>
      simp only [iter, bind_run]
      cases h : body b s with
      | mk t e =>
        cases e with
        | ok x s' =>
          cases x with
          | inl b' =>
            simp only [andThen_ok]
            have := hb b s t b' s' h
            rw [ih m b' s' (by omega) (by omega)]
          | inr a => rfl
        | err e s' => rfl
        | blocked s' => rfl

theorem loop_unfold (body : β → M I O (β ⊕ α)) (hb : Consumes body) (b : β) (s : Sim I O) :
    loop body b s = (body b >>= fun x => match x with
      | .inl b' => loop body b'
      | .inr a => pure a) s := by
  unfold loop
  rw [iter]
  simp only [bind_run]
  cases h : body b s with
  | mk t e =>
    cases e with
    | ok x s' =>
      cases x with
      | inl b' =>
        simp only [andThen_ok]
        have := hb b s t b' s' h
        rw [iter_enough body hb _ (s'.rest.length + 1) b' s' (by omega) (by omega)]
      | inr a => rfl
    | err e s' => rfl
    | blocked s' => rfl

/-! ### `waitRO` -/

theorem bind_ofExcept_ok (a : α) (k : α → M I O β) (s : Sim I O) :
    ((ofExcept (.ok a) : M I O α) >>= k) s = k a s := bind_silent _ _ _ _ _ rfl
theorem bind_ofExcept_error (e : PyErr) (k : α → M I O β) (s : Sim I O) :
    ((ofExcept (.error e) : M I O α) >>= k) s = ([], .err e s) := rfl
theorem bind_raise (e : PyErr) (k : α → M I O β) (s : Sim I O) :
    ((raise e : M I O α) >>= k) s = ([], .err e s) := rfl

/-- body of the loop in `waitRO` -/
def waitBody (test : I → Except PyErr Bool) : Unit → M I O (Unit ⊕ Unit) := fun _ => do
  let i ← inp
  if ← ofExcept (test i) then pure (.inr ())
  else do
    awaitEdge
    readOnly
    pure (.inl ())

theorem waitBody_consumes (test : I → Except PyErr Bool) : Consumes (waitBody (O := O) test) := by
  intro b s t b' s' h
  unfold waitBody at h
  obtain ⟨v, hv⟩ : ∃ v, (inp : M I O I) s = ([], .ok v s) := ⟨_, rfl⟩
  rw [bind_silent inp _ s s v hv] at h
  cases ht : test v with
  | error e => rw [ht, bind_ofExcept_error] at h; cases h
  | ok v =>
    rw [ht, bind_ofExcept_ok] at h
    cases v with
    | true => cases h
    | false =>
      simp only [Bool.false_eq_true, if_false] at h
      cases hr : s.rest with
      | nil => rw [bind_awaitEdge_nil _ s hr] at h; cases h
      | cons i r =>
        rw [bind_awaitEdge_cons _ s i r hr, bind_readOnly _ _ _ (by simp)] at h
        cases h
        simp

theorem waitRO_eq (test : I → Except PyErr Bool) (s : Sim I O) (hs : s.phase ≠ .ro) :
    (waitRO test : M I O Unit) s = loop (waitBody test) () { s with phase := .ro } := by
  unfold waitRO
  rw [bind_readOnly _ _ _ hs]
  rfl

theorem waitLoop_ro (test : I → Except PyErr Bool) (rest : List I) : ∀ (out : O) (prev cur : I),
    ∃ ws : List I, (loop (waitBody test) () (⟨.ro, out, prev, cur, rest⟩ : Sim I O)).1 = ws.map (fun i => (out, i)) ∧
      (∀ i ∈ ws, test i = .ok false) ∧
      ((∃ s', (loop (waitBody test) () (⟨.ro, out, prev, cur, rest⟩ : Sim I O)).2 = .ok () s' ∧ s'.out = out ∧ s'.phase = .ro ∧
          test s'.cur = .ok true ∧ cur :: rest = ws ++ s'.cur :: s'.rest) ∨
       (∃ e s', (loop (waitBody test) () (⟨.ro, out, prev, cur, rest⟩ : Sim I O)).2 = .err e s' ∧ s'.out = out ∧ s'.phase = .ro ∧
          test s'.cur = .error e ∧ cur :: rest = ws ++ s'.cur :: s'.rest) ∨
       (∃ s', (loop (waitBody test) () (⟨.ro, out, prev, cur, rest⟩ : Sim I O)).2 = .blocked s' ∧ s'.out = out ∧ s'.rest = [] ∧
          test s'.cur = .ok false ∧ cur :: rest = ws ++ [s'.cur])) := by
  induction rest with
  | nil =>
    intro out prev cur
    refine ⟨[], ?_⟩
    rw [loop_unfold _ (waitBody_consumes test)]
    unfold waitBody
    rw [bind_assoc_run, bind_inp_ro _ _ rfl, bind_assoc_run]
    cases ht : test cur with
    | error e =>
      rw [bind_ofExcept_error]
      exact ⟨rfl, by simp, .inr (.inl ⟨e, _, rfl, rfl, rfl, ht, rfl⟩)⟩
    | ok v =>
      rw [bind_ofExcept_ok]
      cases v with
      | true =>
        simp only [if_true, bind_pure_run]
        exact ⟨rfl, by simp, .inl ⟨_, rfl, rfl, rfl, ht, rfl⟩⟩
      | false =>
        simp only [Bool.false_eq_true, if_false, bind_assoc_run]
        rw [bind_awaitEdge_nil _ _ rfl]
        exact ⟨rfl, by simp, .inr (.inr ⟨_, rfl, rfl, rfl, ht, rfl⟩)⟩
  | cons j r ih =>
    intro out prev cur
    rw [loop_unfold _ (waitBody_consumes test)]
    unfold waitBody
    rw [bind_assoc_run, bind_inp_ro _ _ rfl, bind_assoc_run]
    cases ht : test cur with
    | error e =>
      rw [bind_ofExcept_error]
      exact ⟨[], rfl, by simp, .inr (.inl ⟨e, _, rfl, rfl, rfl, ht, rfl⟩)⟩
    | ok v =>
      rw [bind_ofExcept_ok]
      cases v with
      | true =>
        simp only [if_true, bind_pure_run]
        exact ⟨[], rfl, by simp, .inl ⟨_, rfl, rfl, rfl, ht, rfl⟩⟩
      | false =>
        simp only [Bool.false_eq_true, if_false, bind_assoc_run]
        rw [bind_awaitEdge_cons _ _ j r rfl]
        simp only [bind_assoc_run]
        rw [bind_readOnly _ _ _ (by simp)]
        simp only [bind_pure_run]
        obtain ⟨ws, h1, h2, h3⟩ := ih out cur j
        refine ⟨cur :: ws, ?_, ?_, ?_⟩
        · rw [List.map_cons, ← h1]; rfl
        · intro i hi
          rcases List.mem_cons.1 hi with rfl | hi
          · exact ht
          · exact h2 i hi
        · rcases h3 with ⟨s', a, b, c, d, e⟩ | ⟨e', s', a, b, c, d, e⟩ | ⟨s', a, b, c, d, e⟩
          · exact .inl ⟨s', a, b, c, d, by rw [e]; rfl⟩
          · exact .inr (.inl ⟨e', s', a, b, c, d, by rw [e]; rfl⟩)
          · exact .inr (.inr ⟨s', a, b, c, d, by rw [e]; rfl⟩)

/-- `waitRO`: the inputs `ws` fail the test at the edges passed; then it is met (`ok`), raises, or time is over -/
theorem waitRO_run (test : I → Except PyErr Bool) (s : Sim I O) (hs : s.phase ≠ .ro) :
    ∃ ws : List I, ((waitRO test : M I O Unit) s).1 = ws.map (fun i => (s.out, i)) ∧
      (∀ i ∈ ws, test i = .ok false) ∧
      ((∃ s', ((waitRO test : M I O Unit) s).2 = .ok () s' ∧ s'.out = s.out ∧ s'.phase = .ro ∧
          test s'.cur = .ok true ∧ s.cur :: s.rest = ws ++ s'.cur :: s'.rest) ∨
       (∃ e s', ((waitRO test : M I O Unit) s).2 = .err e s' ∧ s'.out = s.out ∧ s'.phase = .ro ∧
          test s'.cur = .error e ∧ s.cur :: s.rest = ws ++ s'.cur :: s'.rest) ∨
       (∃ s', ((waitRO test : M I O Unit) s).2 = .blocked s' ∧ s'.out = s.out ∧ s'.rest = [] ∧
          test s'.cur = .ok false ∧ s.cur :: s.rest = ws ++ [s'.cur])) := by
  rw [waitRO_eq test s hs]
  exact waitLoop_ro test s.rest s.out s.prev s.cur

/-! ### `edges` -/

/-- state after `n` further edges without writes -/
def advance : Nat → Sim I O → Sim I O
  | 0, s => s
  | n + 1, s =>
    match s.rest with
    | [] => s
    | i :: r => advance n { s with phase := .edge, prev := s.cur, cur := i, rest := r }

/-- the inputs sampled at the next `n` edges -/
def sampled : Nat → Sim I O → List I
  | 0, _ => []
  | n + 1, s =>
    match s.rest with
    | [] => []
    | i :: r => s.cur :: sampled n { s with phase := .edge, prev := s.cur, cur := i, rest := r }

theorem edges_run (n : Nat) (s : Sim I O) :
    (edges n : M I O Unit) s =
      ((sampled n s).map (fun i => (s.out, i)),
       if n ≤ s.rest.length then .ok () (advance n s) else .blocked (advance n s)) := by
  induction n generalizing s with
  | zero => simp [edges, pure_run, sampled, advance]
  | succ n ih =>
    cases h : s.rest with
    | nil => simp [edges, bind_awaitEdge_nil _ s h, sampled, advance, h]
    | cons i r =>
      simp only [edges, bind_awaitEdge_cons _ s i r h, ih, sampled, advance, h, List.map_cons, List.length_cons,
        Nat.add_le_add_iff_right]

theorem advance_out (n : Nat) (s : Sim I O) : (advance n s).out = s.out := by
  induction n generalizing s with
  | zero => rfl
  | succ n ih =>
    cases h : s.rest with
    | nil => simp [advance, h]
    | cons i r => simp [advance, h, ih]

theorem advance_rest (n : Nat) (s : Sim I O) : (advance n s).rest = s.rest.drop n := by
  induction n generalizing s with
  | zero => rfl
  | succ n ih =>
    cases h : s.rest with
    | nil => simp [advance, h]
    | cons i r => simp [advance, h, ih]

theorem advance_phase (n : Nat) (s : Sim I O) (h : s.phase ≠ .ro) : (advance n s).phase ≠ .ro := by
  induction n generalizing s with
  | zero => exact h
  | succ n ih =>
    cases hr : s.rest with
    | nil => simpa [advance, hr] using h
    | cons i r =>
      simp only [advance, hr]
      exact ih _ (by simp)

theorem sampled_length (n : Nat) (s : Sim I O) : (sampled n s).length = min n s.rest.length := by
  induction n generalizing s with
  | zero => simp [sampled]
  | succ n ih =>
    cases h : s.rest with
    | nil => simp [sampled, h]
    | cons i r =>
      simp only [sampled, h, List.length_cons, ih]
      omega

/-! ### Accounting for cycles -/

/-- the records contain exactly the inputs of the cycles passed, and waiting for ever happens only when there are no
more cycles -/
def Good (x : M I O α) : Prop := ∀ s : Sim I O,
  s.cur :: s.rest = (x s).1.map Prod.snd ++ (x s).2.sim.cur :: (x s).2.sim.rest ∧
  ∀ s', (x s).2 = .blocked s' → s'.rest = []

theorem Good.pure (a : α) : Good (pure a : M I O α) := fun s => ⟨rfl, fun s' h => by cases h⟩
theorem Good.raise (e : PyErr) : Good (raise e : M I O α) := fun s => ⟨rfl, fun s' h => by cases h⟩
theorem Good.inp : Good (inp : M I O I) := fun s => ⟨rfl, fun s' h => by cases h⟩
theorem Good.nextStep : Good (nextStep : M I O Unit) := fun s => ⟨rfl, fun s' h => by cases h⟩
theorem Good.readOnly (b : Bool) : Good (readOnly b : M I O Unit) := fun s => by
  unfold Coro.readOnly; split <;> exact ⟨rfl, fun s' h => by cases h⟩
theorem Good.write (f : O → O) : Good (write f : M I O Unit) := fun s => by
  unfold Coro.write; split <;> exact ⟨rfl, fun s' h => by cases h⟩
theorem Good.ofExcept (x : Except PyErr α) : Good (ofExcept x : M I O α) := fun s => by
  unfold Coro.ofExcept; cases x <;> exact ⟨rfl, fun s' h => by cases h⟩
theorem Good.awaitEdge : Good (awaitEdge : M I O Unit) := fun s => by
  cases h : s.rest with
  | nil => rw [awaitEdge_nil s h]; exact ⟨by simp [End.sim, h], fun s' h' => by cases h'; exact h⟩
  | cons i r => rw [awaitEdge_cons s i r h]; exact ⟨by simp [End.sim], fun s' h' => by cases h'⟩

theorem Good.bind {x : M I O α} {f : α → M I O β} (hx : Good x) (hf : ∀ a, Good (f a)) : Good (x >>= f) := by
  intro s
  obtain ⟨h1, h2⟩ := hx s
  rw [bind_run]
  cases h : x s with
  | mk t e =>
    rw [h] at h1 h2
    cases e with
    | ok a s' =>
      obtain ⟨g1, g2⟩ := hf a s'
      rw [andThen_ok]
      refine ⟨?_, g2⟩
      rw [h1]
      simp only [End.sim, List.map_append, List.append_assoc] at g1 ⊢
      rw [g1]
    | err e s' => exact ⟨h1, fun s2 h' => by cases h'⟩
    | blocked s' =>
      refine ⟨h1, fun s2 h' => ?_⟩
      cases h'; exact h2 _ rfl

theorem Good.when (b : Bool) {x : M I O Unit} (hx : Good x) : Good (when b x) := by
  unfold Coro.when; split
  · exact hx
  · exact Good.pure ()

theorem Good.edges (n : Nat) : Good (edges n : M I O Unit) := by
  induction n with
  | zero => exact Good.pure ()
  | succ n ih => exact Good.bind Good.awaitEdge (fun _ => ih)

theorem good_iter (body : β → M I O (β ⊕ α)) (hc : Consumes body) (hb : ∀ b, Good (body b)) (n : Nat) :
    ∀ (b : β) (s : Sim I O), s.rest.length < n →
    s.cur :: s.rest = (iter body n b s).1.map Prod.snd ++ (iter body n b s).2.sim.cur :: (iter body n b s).2.sim.rest ∧
    ∀ s', (iter body n b s).2 = .blocked s' → s'.rest = [] := by
  induction n with
  | zero => intro b s h; omega
  | succ n ih =>
    intro b s hn
    rw [iter]
    obtain ⟨h1, h2⟩ := hb b s
    rw [bind_run]
    cases h : body b s with
    | mk t e =>
      rw [h] at h1 h2
      cases e with
      | ok a s' =>
        rw [andThen_ok]
        cases a with
        | inl b' =>
          have hlt := hc b s t b' s' h
          obtain ⟨g1, g2⟩ := ih b' s' (by omega)
          refine ⟨?_, g2⟩
          rw [h1]
          simp only [End.sim, List.map_append, List.append_assoc] at g1 ⊢
          rw [g1]
        | inr a =>
          refine ⟨?_, fun s' h' => by cases h'⟩
          rw [h1]; simp [pure_run, End.sim]
      | err e s' => exact ⟨h1, fun s2 h' => by cases h'⟩
      | blocked s' =>
        refine ⟨h1, fun s2 h' => ?_⟩
        cases h'; exact h2 _ rfl

theorem Good.loop (body : β → M I O (β ⊕ α)) (hc : Consumes body) (hb : ∀ b, Good (body b)) (b : β) : Good (loop body b) :=
  fun s => good_iter body hc hb _ b s (Nat.lt_succ_self _)

theorem Good.ite {c : Prop} [Decidable c] {x y : M I O α} (hx : Good x) (hy : Good y) : Good (if c then x else y) := by
  split
  · exact hx
  · exact hy

theorem Good.waitRO (test : I → Except PyErr Bool) : Good (waitRO test : M I O Unit) := by
  refine Good.bind (Good.readOnly true) (fun _ => Good.loop _ (waitBody_consumes test) (fun _ => ?_) ())
  refine Good.bind Good.inp (fun i => Good.bind (Good.ofExcept _) (fun b => Good.ite (Good.pure _) ?_))
  exact Good.bind Good.awaitEdge (fun _ => Good.bind (Good.readOnly true) (fun _ => Good.pure _))

/-! ### Properties of the driven values that a program never breaks -/

/-- If the driven values satisfy `P` at the start, they do so at every edge and at the end. -/
def Keeps (P : O → Prop) (x : M I O α) : Prop := ∀ s : Sim I O, P s.out → (∀ r ∈ (x s).1, P r.1) ∧ P (x s).2.sim.out

section
variable {P : O → Prop}

theorem Keeps.pure (a : α) : Keeps P (pure a : M I O α) := fun _ h => ⟨by simp [pure_run], h⟩
theorem Keeps.raise (e : PyErr) : Keeps P (raise e : M I O α) := fun _ h => ⟨by simp [Coro.raise], h⟩
theorem Keeps.inp : Keeps P (inp : M I O I) := fun _ h => ⟨by simp [Coro.inp], h⟩
theorem Keeps.nextStep : Keeps P (nextStep : M I O Unit) := fun _ h => ⟨by simp [Coro.nextStep], h⟩
theorem Keeps.readOnly (b : Bool) : Keeps P (readOnly b : M I O Unit) := fun s h => by
  unfold Coro.readOnly; split <;> exact ⟨by simp, h⟩
theorem Keeps.write (f : O → O) (hf : ∀ o, P o → P (f o)) : Keeps P (write f : M I O Unit) := fun s h => by
  unfold Coro.write; split
  · exact ⟨by simp, h⟩
  · exact ⟨by simp, hf _ h⟩
theorem Keeps.ofExcept (x : Except PyErr α) : Keeps P (ofExcept x : M I O α) := fun s h => by
  unfold Coro.ofExcept; cases x <;> exact ⟨by simp, h⟩
theorem Keeps.awaitEdge : Keeps P (awaitEdge : M I O Unit) := fun s h => by
  cases hr : s.rest with
  | nil => rw [awaitEdge_nil s hr]; exact ⟨by simp, h⟩
  | cons i r => rw [awaitEdge_cons s i r hr]; exact ⟨by simpa using h, h⟩

theorem Keeps.bind {x : M I O α} {f : α → M I O β} (hx : Keeps P x) (hf : ∀ a, Keeps P (f a)) : Keeps P (x >>= f) := by
  intro s h
  obtain ⟨h1, h2⟩ := hx s h
  rw [bind_run]
  cases hr : x s with
  | mk t e =>
    rw [hr] at h1 h2
    cases e with
    | ok a s' =>
      obtain ⟨h3, h4⟩ := hf a s' h2
      rw [andThen_ok]
      refine ⟨?_, h4⟩
      intro r hm
      rcases List.mem_append.1 hm with hm | hm
      · exact h1 r hm
      · exact h3 r hm
    | err e s' => exact ⟨h1, h2⟩
    | blocked s' => exact ⟨h1, h2⟩

theorem Keeps.when (b : Bool) {x : M I O Unit} (h : Keeps P x) : Keeps P (when b x) := by
  unfold Coro.when; split
  · exact h
  · exact Keeps.pure _

theorem Keeps.ite {c : Prop} [Decidable c] {x y : M I O α} (hx : Keeps P x) (hy : Keeps P y) : Keeps P (if c then x else y) := by
  split
  · exact hx
  · exact hy

theorem Keeps.edges (n : Nat) : Keeps P (edges n : M I O Unit) := by
  induction n with
  | zero => exact Keeps.pure _
  | succ n ih => exact Keeps.bind Keeps.awaitEdge fun _ => ih

theorem Keeps.iter (body : β → M I O (β ⊕ α)) (hb : ∀ b, Keeps P (body b)) (n : Nat) : ∀ b, Keeps P (iter body n b) := by
  induction n with
  | zero => intro b s h; exact ⟨by simp [Coro.iter], h⟩
  | succ n ih =>
    intro b
    refine Keeps.bind (hb b) fun x => ?_
    cases x with
    | inl b' => exact ih b'
    | inr a => exact Keeps.pure _

theorem Keeps.loop (body : β → M I O (β ⊕ α)) (hb : ∀ b, Keeps P (body b)) (b : β) : Keeps P (loop body b) :=
  fun s h => Keeps.iter body hb _ b s h

theorem Keeps.waitRO (test : I → Except PyErr Bool) : Keeps P (waitRO test : M I O Unit) := by
  refine Keeps.bind (Keeps.readOnly _) fun _ => Keeps.loop _ (fun _ => ?_) _
  refine Keeps.bind Keeps.inp fun _ => Keeps.bind (Keeps.ofExcept _) fun _ => Keeps.ite (Keeps.pure _) ?_
  exact Keeps.bind Keeps.awaitEdge fun _ => Keeps.bind (Keeps.readOnly _) fun _ => Keeps.pure _

end

end CocotbBus
