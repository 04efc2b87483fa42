import Verif.Spec.AxiMaster
import Verif.Model.Cancel
import Verif.Proof.Session
import Verif.Proof.Causal
import Verif.Proof.AvalonMM
import Verif.Proof.Opb
import Verif.Proof.MmExists

/-! # Lemmas about cancelled coroutines -/

namespace CocotbBus
open Spec Coro
variable {I O P α β : Type}

/-- a coroutine that has not ended after `n` edges -/
theorem cancel_blocked (n : Nat) (x : M I O α) (s : Sim I O) (hn : n ≤ s.rest.length) (t : List (O × I)) (s' : Sim I O)
    (h : x { s with rest := s.rest.take n } = (t, .blocked s')) (hr : s'.rest = []) :
    cancelAfter n x s = (t, .ok () { s' with phase := .mid, rest := s.rest.drop n }) := by
  unfold cancelAfter
  rw [if_pos hn, h]
  simp only [hr, List.length_nil, edges]
  rw [andThen_ok]
  simp [bind_pure_run, nextStep, Sim.extend, hr]

theorem cancel_ok (n : Nat) (x : M I O α) (s : Sim I O) (hn : n ≤ s.rest.length) (t : List (O × I)) (a : α) (s' : Sim I O)
    (h : x { s with rest := s.rest.take n } = (t, .ok a s')) :
    cancelAfter n x s = (t, .ok () (s'.extend (s.rest.drop n))) := by
  unfold cancelAfter
  rw [if_pos hn, h]

/-- nobody drives the pins while the clock goes on -/
theorem edges_records (m : Nat) : ∀ s : Sim I O, (∀ q ∈ (edges m s : Res I O Unit).1, q.1 = s.out) ∧ ((edges m s : Res I O Unit).2.sim.out = s.out) := by
  induction m with
  | zero => intro s; exact ⟨by simp [edges, pure_run], rfl⟩
  | succ m ih =>
    intro s
    rw [edges]
    cases hr : s.rest with
    | nil => rw [bind_awaitEdge_nil _ s hr]; simp [End.sim]
    | cons i r =>
      rw [bind_awaitEdge_cons _ s i r hr]
      obtain ⟨h1, h2⟩ := ih { s with phase := .edge, prev := s.cur, cur := i, rest := r }
      exact ⟨by simpa using h1, h2⟩

theorem edges_noerr (m : Nat) : ∀ (s : Sim I O) (e : PyErr) (s' : Sim I O), (edges m s : Res I O Unit).2 ≠ .err e s' := by
  induction m with
  | zero => intro s e s' h; cases h
  | succ m ih =>
    intro s e s' h
    rw [edges] at h
    cases hr : s.rest with
    | nil => rw [bind_awaitEdge_nil _ s hr] at h; cases h
    | cons i r =>
      rw [bind_awaitEdge_cons _ s i r hr] at h
      exact ih _ e s' h

theorem taken_constant (V : Stream I O P) (o : O) (t : List (O × I)) (ht : ∀ q ∈ t, q.1 = o) :
    ∃ j, V.taken t = List.replicate j (V.payload o) ∧ (V.valid o = false → j = 0) := by
  induction t with
  | nil => exact ⟨0, rfl, fun _ => rfl⟩
  | cons q t ih =>
    obtain ⟨j, h1, h2⟩ := ih (fun q hq => ht q (by simp [hq]))
    have hq := ht q (by simp)
    rcases Bool.eq_false_or_eq_true (V.xfer q) with h | h
    · refine ⟨j + 1, ?_, fun hv => ?_⟩
      · rw [List.replicate_succ, ← h1, ← hq]; simp [Stream.taken, h]
      · rw [Stream.xfer, hq, hv] at h; cases h
    · exact ⟨j, by rw [← h1]; simp [Stream.taken, h], h2⟩

/-- A run whose coroutine may have been cancelled: the payloads up to some point, and which one is on the pins, if any. -/
structure Stopped (V : Stream I O P) (l : List P) (r : Res I O Unit) (k : Nat) : Prop where
  le : k ≤ l.length
  taken : V.taken r.1 = l.take k
  offered : V.valid r.2.sim.out = true → l[k]? = some (V.payload r.2.sim.out)
  noerr : ∀ e s', r.2 ≠ .err e s'

theorem cancel_stopped' (V : Stream I O P) (n : Nat) (x : M I O α) (l : List P) (s : Sim I O)
    (hg : ∀ r s', (x { s with rest := r }).2 = .blocked s' → s'.rest = [])
    (h : ∀ r, (∀ i ∈ r, i ∈ s.rest) → Passes V l (x { s with rest := r }) (fun _ s' => IdleBus V s')) :
    ∃ k, Stopped V l (cancelAfter n x s) k ∧ ∀ a s', (cancelAfter n x s).2 = .ok a s' → s'.phase ≠ .ro := by
  by_cases hn : n ≤ s.rest.length
  · obtain ⟨k, hk, h1, -, h3⟩ := h (s.rest.take n) (fun i hi => List.mem_of_mem_take hi)
    refine ⟨k, ?_⟩
    cases hr : x { s with rest := s.rest.take n } with
    | mk t e =>
      rw [hr] at h1 h3
      rcases h3 with ⟨-, -, a, s', rfl, h4⟩ | ⟨s', rfl, h4⟩
      · rw [cancel_ok n x s hn t a s' hr]
        refine ⟨⟨hk, h1, fun hv => ?_, by simp⟩, fun a s'' he => (by cases he; exact h4.1)⟩
        exact absurd (show V.valid s'.out = true from hv) (by simp [h4.2])
      · rw [cancel_blocked n x s hn t s' hr (hg _ s' (by rw [hr]))]
        exact ⟨⟨hk, h1, h4, by simp⟩, fun a s'' he => by cases he; simp⟩
  · obtain ⟨k, hk, h1, -, h3⟩ := h s.rest (fun i hi => hi)
    have hse : ({ s with rest := s.rest } : Sim I O) = s := rfl
    rw [hse] at h1 h3
    have hc : cancelAfter n x s = (x >>= fun _ => pure ()) s := by unfold cancelAfter; rw [if_neg hn]
    refine ⟨k, ?_⟩
    rw [hc, bind_run]
    cases hr : x s with
    | mk t e =>
      rw [hr] at h1 h3
      rcases h3 with ⟨-, -, a, s', rfl, h4⟩ | ⟨s', rfl, h4⟩
      · rw [andThen_ok]
        refine ⟨⟨hk, by simpa [pure_run] using h1, fun hv => ?_, by simp [pure_run]⟩, fun a s'' he => (by cases he; exact h4.1)⟩
        exact absurd (show V.valid s'.out = true from hv) (by simp [h4.2])
      · rw [andThen_blocked]
        exact ⟨⟨hk, h1, h4, by simp⟩, fun a s'' he => by cases he⟩

theorem cancel_stopped (V : Stream I O P) (n : Nat) (x : M I O α) (hg : Good x) (l : List P) (s : Sim I O)
    (h : ∀ s : Sim I O, s.phase ≠ .ro → Passes V l (x s) (fun _ s' => IdleBus V s')) (hs : s.phase ≠ .ro) :
    ∃ k, Stopped V l (cancelAfter n x s) k ∧ ∀ a s', (cancelAfter n x s).2 = .ok a s' → s'.phase ≠ .ro :=
  cancel_stopped' V n x l s (fun _ s' hb => (hg _).2 s' hb) (fun r _ => h { s with rest := r } hs)

/-- after the cancellation the clock goes on: only the payload on the pins is transferred, possibly many times -/
theorem stopped_edges (V : Stream I O P) (l : List P) (x : M I O Unit) (s : Sim I O) (k : Nat) (hx : Stopped V l (x s) k) (m : Nat) :
    (∃ j b, (0 < j → l[k]? = some b) ∧ V.taken ((x >>= fun _ => edges m) s).1 = l.take k ++ List.replicate j b) ∨
    V.taken ((x >>= fun _ => edges m) s).1 = l.take k := by
  rw [bind_run]
  cases hr : x s with
  | mk t e =>
    rw [hr] at hx
    cases e with
    | ok a s' =>
      rw [andThen_ok, taken_append, hx.taken]
      obtain ⟨j, h1, h2⟩ := taken_constant V s'.out (edges m s' : Res I O Unit).1 (edges_records m s').1
      refine .inl ⟨j, V.payload s'.out, fun hj => hx.offered ?_, by rw [h1]⟩
      rcases Bool.eq_false_or_eq_true (V.valid s'.out) with h | h
      · exact h
      · rw [h2 h] at hj; cases hj
    | err e s' => exact absurd rfl (hx.noerr e s')
    | blocked s' => rw [andThen_blocked]; exact .inr hx.taken

/-- nothing offered when cancelled -/
theorem stopped_idle (V : Stream I O P) (l : List P) (x : M I O Unit) (s : Sim I O) (k : Nat) (hx : Stopped V l (x s) k)
    (hv : V.valid (x s).2.sim.out = false) (m : Nat) : V.taken ((x >>= fun _ => edges m) s).1 = l.take k := by
  rw [bind_run]
  cases hr : x s with
  | mk t e =>
    rw [hr] at hx hv
    cases e with
    | ok a s' =>
      obtain ⟨j, h1, h2⟩ := taken_constant V s'.out (edges m s' : Res I O Unit).1 (edges_records m s').1
      rw [andThen_ok, taken_append, hx.taken, h1, h2 hv]
      simp
    | err e s' => exact absurd rfl (hx.noerr e s')
    | blocked s' => rw [andThen_blocked]; exact hx.taken

/-- something else is sent right after the cancellation -/
theorem stopped_then (V : Stream I O P) (l l' : List P) (x : M I O Unit) (y : M I O β) (s : Sim I O) (k : Nat) (hx : Stopped V l (x s) k)
    (hph : ∀ a s', (x s).2 = .ok a s' → s'.phase ≠ .ro) (post : β → Sim I O → Prop)
    (hy : ∀ s : Sim I O, s.phase ≠ .ro → Passes V l' (y s) post) :
    (∃ k', V.taken ((x >>= fun _ => y) s).1 = l.take k ++ l'.take k') ∧
    (∀ a s', ((x >>= fun _ => y) s).2 = .ok a s' → V.taken ((x >>= fun _ => y) s).1 = l.take k ++ l') ∧
    (∀ e s', ((x >>= fun _ => y) s).2 ≠ .err e s') := by
  rw [bind_run]
  cases hr : x s with
  | mk t e =>
    rw [hr] at hx hph
    cases e with
    | ok a s' =>
      obtain ⟨k', hk', h1, -, h3⟩ := hy s' (hph a s' rfl)
      rw [andThen_ok, taken_append, hx.taken, h1]
      refine ⟨⟨k', rfl⟩, fun b s2 he => ?_, fun e s2 he => ?_⟩
      · rcases h3 with ⟨rfl, -, -⟩ | ⟨s3, h3, -⟩
        · rw [List.take_length]
        · rw [show (y s').2 = _ from h3] at he; cases he
      · rcases h3 with ⟨-, -, b, s3, h3, -⟩ | ⟨s3, h3, -⟩ <;> (rw [show (y s').2 = _ from h3] at he; cases he)
    | err e s' => exact absurd rfl (hx.noerr e s')
    | blocked s' =>
      rw [andThen_blocked]
      exact ⟨⟨0, by simpa using hx.taken⟩, fun a s2 he => (by cases he), fun e s2 he => by cases he⟩

/-- two executions whose records agree as far as both go -/
theorem Causal.extend {x : M I O α} (hx : Causal x) (s : Sim I O) (r : List I) :
    (x s).1 <+: (x (s.extend r)).1 ∧ (∀ a s', (x s).2 = .ok a s' → (x (s.extend r)) = ((x s).1, .ok a (s'.extend r))) ∧
    (∀ e s', (x s).2 = .err e s' → (x (s.extend r)) = ((x s).1, .err e (s'.extend r))) := by
  induction r generalizing s with
  | nil =>
    have : ∀ s : Sim I O, s.extend [] = s := fun s => by simp [Sim.extend]
    simp only [this]
    exact ⟨List.prefix_rfl, fun a s' h => by rw [← h], fun e s' h => by rw [← h]⟩
  | cons i r ih =>
    have he : ∀ s : Sim I O, s.extend (i :: r) = (s.snoc i).extend r := fun s => by simp [Sim.extend, Sim.snoc]
    rw [he]
    obtain ⟨h1, h2, h3⟩ := ih (s.snoc i)
    have hE := (hx s).2 i
    cases hr : x s with
    | mk t e =>
      rw [hr] at hE
      cases e with
      | ok a s' =>
        have hE : x (s.snoc i) = (t, .ok a (s'.snoc i)) := hE
        rw [hE] at h1 h2
        exact ⟨h1, fun b s2 h => (by cases h; rw [he]; exact h2 _ _ rfl), fun e s2 h => by cases h⟩
      | err e s' =>
        have hE : x (s.snoc i) = (t, .err e (s'.snoc i)) := hE
        rw [hE] at h1 h3
        exact ⟨h1, fun b s2 h => (by cases h), fun e s2 h => by cases h; rw [he]; exact h3 _ _ rfl⟩
      | blocked s' =>
        refine ⟨?_, fun b s2 h => (by cases h), fun e s2 h => by cases h⟩
        rcases hE with hE | ⟨-, q, t', e', hE, -⟩
        · rw [hE] at h1; exact h1
        · rw [hE] at h1; exact (List.prefix_append _ _).trans h1

/-! ### Avalon-MM and OPB: the lock -/

/-- `x` ends with a release of the lock; if it does not get there the lock stays taken -/
def LockHeld (busy : O → Bool) (x : M I O α) : Prop :=
  ∀ s : Sim I O, busy s.out = true → (x s).2.isOk = false → busy (x s).2.sim.out = true

theorem LockHeld.last {busy : O → Bool} {x : M I O α} (h : ∀ s, (x s).2.isOk = true) : LockHeld busy x := fun s _ hn => by
  rw [h s] at hn; cases hn

theorem LockHeld.bind {busy : O → Bool} {x : M I O α} {f : α → M I O β} (hx : Keeps (fun o => busy o = true) x) (hf : ∀ a, LockHeld busy (f a)) :
    LockHeld busy (x >>= f) := by
  intro s hs hn
  obtain ⟨h1, h2⟩ := hx s hs
  rw [bind_run] at hn ⊢
  cases hr : x s with
  | mk t e =>
    rw [hr] at hn h2
    cases e with
    | ok a s' =>
      rw [andThen_ok] at hn ⊢
      exact hf a s' h2 hn
    | err e s' => rw [andThen_err]; exact h2
    | blocked s' => rw [andThen_blocked]; exact h2

theorem LockHeld.pure {busy : O → Bool} (a : α) : LockHeld busy (pure a : M I O α) := LockHeld.last (fun _ => rfl)

theorem LockHeld.ite {busy : O → Bool} {c : Prop} [Decidable c] {x y : M I O α} (hx : LockHeld busy x) (hy : LockHeld busy y) :
    LockHeld busy (if c then x else y) := by
  split
  · exact hx
  · exact hy

theorem Keeps.writeInt {P : O → Prop} (w n : Nat) (f : LogicArray → O → O) (hf : ∀ v o, P o → P (f v o)) : Keeps P (writeInt w n f : M I O Unit) :=
  Keeps.ite (Keeps.write _ (fun o h => hf _ o h)) (Keeps.raise _)

theorem Keeps.awaitChange {P : O → Prop} (f : I → Logic) : Keeps P (awaitChange f : M I O Unit) :=
  Keeps.bind Keeps.inp fun _ => Keeps.loop _ (fun _ => Keeps.bind Keeps.awaitEdge fun _ => Keeps.bind Keeps.nextStep fun _ =>
    Keeps.bind Keeps.inp fun _ => Keeps.pure _) _

theorem Keeps.waitN {P : O → Prop} (f : I → Logic) : Keeps P (waitN f : M I O Unit) :=
  Keeps.bind (Keeps.readOnly _) fun _ => Keeps.bind (Keeps.loop _ (fun _ => Keeps.bind Keeps.inp fun _ => Keeps.bind (Keeps.ofExcept _) fun _ =>
    Keeps.ite (Keeps.pure _) (Keeps.bind (Keeps.awaitChange f) fun _ => Keeps.bind (Keeps.readOnly _) fun _ => Keeps.pure _)) _) fun _ => Keeps.nextStep

theorem mmWriteBody_lock (c : MmCfg) (a v : Nat) : LockHeld (fun o : MmOut => o.busy) (mmWriteBody c a v) :=
  LockHeld.bind Keeps.awaitEdge fun _ => LockHeld.bind (Keeps.writeInt _ _ _ (fun _ _ h => h)) fun _ =>
  LockHeld.bind (Keeps.writeInt _ _ _ (fun _ _ h => h)) fun _ => LockHeld.bind (Keeps.write _ (fun _ h => h)) fun _ =>
  LockHeld.bind (Keeps.write _ (fun _ h => h)) fun _ => LockHeld.bind (Keeps.when _ (Keeps.waitN _)) fun _ =>
  LockHeld.bind Keeps.awaitEdge fun _ => LockHeld.bind (Keeps.write _ (fun _ h => h)) fun _ =>
  LockHeld.bind (Keeps.write _ (fun _ h => h)) fun _ => LockHeld.bind (Keeps.write _ (fun _ h => h)) fun _ => LockHeld.last (fun _ => rfl)

theorem mmReadBody_lock (c : MmCfg) (a : Nat) (sync : Bool) :
    LockHeld (fun o : MmOut => o.busy) (mmReadReq c a sync >>= fun _ => mmReadData c) := by
  refine LockHeld.bind ?_ fun _ => ?_
  · exact Keeps.bind (Keeps.when _ Keeps.awaitEdge) fun _ => Keeps.bind (Keeps.writeInt _ _ _ (fun _ _ h => h)) fun _ =>
      Keeps.bind (Keeps.write _ (fun _ h => h)) fun _ => Keeps.bind (Keeps.write _ (fun _ h => h)) fun _ =>
      Keeps.bind (Keeps.when _ (Keeps.waitN _)) fun _ => Keeps.bind Keeps.awaitEdge fun _ => Keeps.bind (Keeps.write _ (fun _ h => h)) fun _ =>
      Keeps.write _ (fun _ h => h)
  · refine LockHeld.bind (Keeps.ite (Keeps.loop _ (fun _ => ?_) _) (Keeps.readOnly _)) fun _ => LockHeld.bind Keeps.inp fun _ => LockHeld.last (fun _ => rfl)
    exact Keeps.bind (Keeps.readOnly _) fun _ => Keeps.bind Keeps.inp fun _ => Keeps.bind (Keeps.ofExcept _) fun _ =>
      Keeps.ite (Keeps.bind Keeps.awaitEdge fun _ => Keeps.pure _) (Keeps.pure _)

theorem mmAcquire_busy (k : Unit → M MmIn MmOut β) (s : Sim MmIn MmOut) (h : s.out.busy = true) : (mmAcquire >>= k) s = ([], .blocked s) := by
  unfold mmAcquire
  rw [bind_assoc_run, bind_getOut, h]
  rfl

theorem mmReadData_good (c : MmCfg) : Good (mmReadData c) :=
  Good.bind (Good.ite (Good.loop _ rdvBody_consumes (fun _ => Good.bind (Good.readOnly _) fun _ => Good.bind Good.inp fun _ => Good.bind (Good.ofExcept _) fun _ =>
    Good.ite (Good.bind Good.awaitEdge fun _ => Good.pure _) (Good.pure _)) _) (Good.readOnly _)) fun _ => Good.bind Good.inp fun _ =>
  Good.bind (Good.setPy _) fun _ => Good.pure _

/-- a call made while the lock is taken waits for ever -/
theorem mmStep_busy (c : MmCfg) (op : MmOp) (hop : OpOk c op) (hc : ∀ n, op ≠ .pause n) (s : Sim MmIn MmOut) (h : s.out.busy = true) :
    mmStep c op s = ([], .blocked s) := by
  cases op with
  | write a v =>
    show (mmWrite c a v >>= _) s = _
    have : mmWrite c a v s = ([], .blocked s) := by
      unfold mmWrite
      simp only [hop.1, Bool.not_true, Coro.when, Bool.false_eq_true, if_false, pure_bind]
      exact mmAcquire_busy _ s h
    rw [bind_run, this, andThen_blocked]
  | read a =>
    show (mmRead c a true >>= _) s = _
    have : mmRead c a true s = ([], .blocked s) := by
      unfold mmRead
      simp only [hop.1, Bool.not_true, Coro.when, Bool.false_eq_true, if_false, pure_bind]
      exact mmAcquire_busy _ s h
    rw [bind_run, this, andThen_blocked]
  | pause n => exact absurd rfl (hc n)

/-- a call that has not ended has the lock, and is waiting for the clock -/
theorem mmStep_blocked (c : MmCfg) (op : MmOp) (hop : OpOk c op) (hc : ∀ n, op ≠ .pause n) (s : Sim MmIn MmOut) (h : s.out.busy = false)
    (t : List (MmOut × MmIn)) (s' : Sim MmIn MmOut) (he : mmStep c op s = (t, .blocked s')) : s'.out.busy = true ∧ s'.rest = [] := by
  have aux : ∀ {α : Type} (x : M MmIn MmOut α), Good x → LockHeld (fun o : MmOut => o.busy) x → ∀ f : α → Option LogicArray,
      (x >>= fun d => pure (f d)) { s with out := { s.out with busy := true } } = (t, .blocked s') → s'.out.busy = true ∧ s'.rest = [] := by
    intro α x hg hl f he
    have h1 := (Good.bind hg (fun d => Good.pure (f d))) { s with out := { s.out with busy := true } }
    have h2 := hl { s with out := { s.out with busy := true } } rfl
    rw [bind_run] at he
    cases hr : x { s with out := { s.out with busy := true } } with
    | mk u e =>
      rw [hr] at he h2
      cases e with
      | ok a s2 => rw [andThen_ok] at he; cases he
      | err e s2 => cases he
      | blocked s2 =>
        rw [andThen_blocked] at he
        cases he
        exact ⟨h2 rfl, h1.2 s' (by rw [bind_run, hr, andThen_blocked])⟩
  cases op with
  | write a v =>
    refine aux (mmWriteBody c a v) (mmWriteBody_good c a v) (mmWriteBody_lock c a v) (fun _ => none) ?_
    rw [← he]
    show _ = (mmWrite c a v >>= fun _ => pure none) s
    rw [bind_run, bind_run, mmWrite_eq c a v hop.1 s h]
  | read a =>
    refine aux _ (Good.bind (mmReadReq_good c a true) fun _ => mmReadData_good c) (mmReadBody_lock c a true) some ?_
    rw [← he]
    show _ = (mmRead c a true >>= fun d => pure (some d)) s
    have e := mmRead_eq c a true hop.1 s h
    exact (congrArg (fun r : Res MmIn MmOut LogicArray => r.andThen fun d => (pure (some d) : M MmIn MmOut (Option LogicArray))) e).symm
  | pause n => exact absurd rfl (hc n)

/-! ### OPB -/

theorem opbWait_keeps {P : OpbOut → Prop} : Keeps P opbWait :=
  Keeps.loop _ (fun _ => Keeps.bind Keeps.inp fun _ => Keeps.bind (Keeps.ofExcept _) fun _ => Keeps.ite (Keeps.pure _)
    (Keeps.bind Keeps.awaitEdge fun _ => Keeps.bind (Keeps.readOnly _) fun _ => Keeps.bind Keeps.inp fun _ => Keeps.bind (Keeps.ofExcept _) fun _ =>
      Keeps.ite (Keeps.raise _) (Keeps.pure _))) _

theorem opbRead_lock (c : OpbCfg) (a : Nat) (sync : Bool) (s : Sim OpbIn OpbOut) (hn : (opbRead c a sync s).2.isOk = false) :
    (opbRead c a sync s).2.sim.out.busy = true := by
  rcases Bool.eq_false_or_eq_true s.out.busy with h | h
  · unfold opbRead; rw [opbAcquire_busy _ s h]; exact h
  · unfold opbRead at hn ⊢
    rw [opbAcquire_bind _ s h] at hn ⊢
    refine (?_ : LockHeld (fun o : OpbOut => o.busy) _) _ rfl hn
    exact LockHeld.bind (Keeps.when _ Keeps.awaitEdge) fun _ => LockHeld.bind (Keeps.writeInt _ _ _ (fun _ _ h => h)) fun _ =>
      LockHeld.bind (Keeps.write _ (fun _ h => h)) fun _ => LockHeld.bind (Keeps.write _ (fun _ h => h)) fun _ =>
      LockHeld.bind (Keeps.writeInt _ _ _ (fun _ _ h => h)) fun _ => LockHeld.bind opbWait_keeps fun _ => LockHeld.bind Keeps.inp fun _ =>
      LockHeld.bind (Keeps.ofExcept _) fun _ => LockHeld.bind (Keeps.write _ (fun _ h => h)) fun _ => LockHeld.last (fun _ => rfl)

theorem opbWrite_lock (c : OpbCfg) (a v : Nat) (sync : Bool) (s : Sim OpbIn OpbOut) (hn : (opbWrite c a v sync s).2.isOk = false) :
    (opbWrite c a v sync s).2.sim.out.busy = true := by
  rcases Bool.eq_false_or_eq_true s.out.busy with h | h
  · unfold opbWrite; rw [opbAcquire_busy _ s h]; exact h
  · unfold opbWrite at hn ⊢
    rw [opbAcquire_bind _ s h] at hn ⊢
    refine (?_ : LockHeld (fun o : OpbOut => o.busy) _) _ rfl hn
    exact LockHeld.bind (Keeps.when _ Keeps.awaitEdge) fun _ => LockHeld.bind (Keeps.writeInt _ _ _ (fun _ _ h => h)) fun _ =>
      LockHeld.bind (Keeps.write _ (fun _ h => h)) fun _ => LockHeld.bind (Keeps.write _ (fun _ h => h)) fun _ =>
      LockHeld.bind (Keeps.writeInt _ _ _ (fun _ _ h => h)) fun _ => LockHeld.bind (Keeps.writeInt _ _ _ (fun _ _ h => h)) fun _ =>
      LockHeld.bind opbWait_keeps fun _ =>
      LockHeld.bind (Keeps.write _ (fun _ h => h)) fun _ => LockHeld.last (fun _ => rfl)

theorem opbWait_good : Good opbWait :=
  Good.loop _ opbBody_consumes (fun _ => Good.bind Good.inp fun _ => Good.bind (Good.ofExcept _) fun _ => Good.ite (Good.pure _)
    (Good.bind Good.awaitEdge fun _ => Good.bind (Good.readOnly _) fun _ => Good.bind Good.inp fun _ => Good.bind (Good.ofExcept _) fun _ =>
      Good.ite (Good.raise _) (Good.pure _))) _

theorem opbRead_waits (c : OpbCfg) (a : Nat) (sync : Bool) (s : Sim OpbIn OpbOut) (h : s.out.busy = false) (s' : Sim OpbIn OpbOut)
    (hb : (opbRead c a sync s).2 = .blocked s') : s'.rest = [] := by
  unfold opbRead at hb
  rw [opbAcquire_bind _ s h] at hb
  refine ((?_ : Good _) _).2 s' hb
  exact Good.bind (Good.when _ Good.awaitEdge) fun _ => Good.bind (Good.writeInt _ _ _) fun _ => Good.bind (Good.write _) fun _ =>
    Good.bind (Good.write _) fun _ => Good.bind (Good.writeInt _ _ _) fun _ => Good.bind opbWait_good fun _ => Good.bind Good.inp fun _ =>
    Good.bind (Good.ofExcept _) fun _ => Good.bind (Good.write _) fun _ => Good.bind (Good.setPy _) fun _ => Good.pure _

theorem opbWrite_waits (c : OpbCfg) (a v : Nat) (sync : Bool) (s : Sim OpbIn OpbOut) (h : s.out.busy = false) (s' : Sim OpbIn OpbOut)
    (hb : (opbWrite c a v sync s).2 = .blocked s') : s'.rest = [] := by
  unfold opbWrite at hb
  rw [opbAcquire_bind _ s h] at hb
  refine ((?_ : Good _) _).2 s' hb
  exact Good.bind (Good.when _ Good.awaitEdge) fun _ => Good.bind (Good.writeInt _ _ _) fun _ => Good.bind (Good.write _) fun _ =>
    Good.bind (Good.write _) fun _ => Good.bind (Good.writeInt _ _ _) fun _ => Good.bind (Good.writeInt _ _ _) fun _ =>
    Good.bind opbWait_good fun _ => Good.bind (Good.write _) fun _ => Good.setPy _

/-- a cancelled coroutine, then some edges, then a call: the call starts with the signals as they were left -/
theorem cancel_then (n m : Nat) (x : M I O α) (y : M I O β) (s : Sim I O) (hn : n ≤ s.rest.length)
    (hb : ∀ s', (x { s with rest := s.rest.take n }).2 = .blocked s' → s'.rest = [])
    (hx : result (x { s with rest := s.rest.take n }) = none)
    (hy : ∀ s' : Sim I O, s'.out = (x { s with rest := s.rest.take n }).2.sim.out → result (y s') = none) :
    result ((do cancelAfter n x; edges m; y) s) = none := by
  cases hr : x { s with rest := s.rest.take n } with
  | mk t e =>
    rw [hr] at hb hx hy
    cases e with
    | ok a s' => cases hx
    | err e s' => cases hx
    | blocked s' =>
      have hc := cancel_blocked n x s hn t s' hr (hb s' rfl)
      show result ((cancelAfter n x >>= fun _ => (edges m >>= fun _ => y)) s) = none
      rw [bind_run, hc, andThen_ok, bind_run]
      have he := edges_records (I := I) m { s' with phase := .mid, rest := s.rest.drop n }
      cases hr2 : (edges m : M I O Unit) { s' with phase := .mid, rest := s.rest.drop n } with
      | mk t2 e2 =>
        rw [hr2] at he
        have hno : ∀ e3 s3, e2 ≠ .err e3 s3 := by
          intro e3 s3 h
          exact edges_noerr m { s' with phase := .mid, rest := s.rest.drop n } e3 s3 (by rw [hr2, h])
        cases e2 with
        | ok u s2 =>
          rw [andThen_ok]
          have := hy s2 he.2
          unfold result at this ⊢
          exact this
        | err e2 s2 => exact absurd rfl (hno e2 s2)
        | blocked s2 => rfl

theorem isOk_of_none (r : Res I O α) (h : result r = none) : r.2.isOk = false := by
  obtain ⟨t, e⟩ := r
  cases e with
  | ok a s => cases h
  | err e s => rfl
  | blocked s => rfl

/-- a coroutine that has ended in time is not affected by the cancellation -/
theorem cancel_ended (n : Nat) (x : M I O α) (hc : Causal x) (s : Sim I O) (hn : n ≤ s.rest.length)
    (hx : result (x { s with rest := s.rest.take n }) ≠ none) : cancelAfter n x s = (x >>= fun _ => pure ()) s := by
  obtain ⟨-, h1, h2⟩ := hc.extend { s with rest := s.rest.take n } (s.rest.drop n)
  have hs : Sim.extend { s with rest := s.rest.take n } (s.rest.drop n) = s := by simp [Sim.extend]
  rw [hs] at h1 h2
  unfold cancelAfter
  rw [if_pos hn, bind_run]
  cases hr : x { s with rest := s.rest.take n } with
  | mk t e =>
    rw [hr] at h1 h2 hx
    cases e with
    | ok a s' => rw [h1 a s' rfl, andThen_ok]; simp [pure_run]
    | err e s' => rw [h2 e s' rfl]; rfl
    | blocked s' => exact absurd rfl hx

/-- what a coroutine does before it is cancelled is what it would have done -/
theorem cancel_prefix (n : Nat) (x : M I O α) (hc : Causal x) (hg : Good x) (s : Sim I O) : (cancelAfter n x s).1 <+: (x s).1 := by
  by_cases hn : n ≤ s.rest.length
  · obtain ⟨h0, h1, h2⟩ := hc.extend { s with rest := s.rest.take n } (s.rest.drop n)
    have hs : Sim.extend { s with rest := s.rest.take n } (s.rest.drop n) = s := by simp [Sim.extend]
    rw [hs] at h0 h1 h2
    cases hr : x { s with rest := s.rest.take n } with
    | mk t e =>
      rw [hr] at h0 h1 h2
      cases e with
      | ok a s' => rw [cancel_ok n x s hn t a s' hr]; exact h0
      | err e s' => unfold cancelAfter; rw [if_pos hn, hr]; exact h0
      | blocked s' =>
        rw [cancel_blocked n x s hn t s' hr ((hg { s with rest := s.rest.take n }).2 s' (by rw [hr]))]
        exact h0
  · unfold cancelAfter
    rw [if_neg hn, bind_run]
    cases hr : x s with
    | mk t e => cases e <;> simp [Res.andThen, pure_run]

end CocotbBus
