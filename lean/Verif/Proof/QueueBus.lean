import Verif.Proof.Session
import Verif.Spec.QueueBus

/-! # The send queue in time -/

namespace CocotbBus
open Spec Coro

section
variable {I O P α : Type}

theorem grows_final (app : Sched α) (hg : Grows app) (r : Nat) : ∀ ph, app r ph <+: app 0 .mid := by
  have hm : ∀ r, app r .mid <+: app 0 .mid := by
    intro r
    induction r with
    | zero => exact List.prefix_refl _
    | succ r ih => exact ((hg r).2.2.trans ((hg r).1.trans (hg r).2.1)).trans ih
  intro ph
  cases ph with
  | edge => exact ((hg r).1.trans (hg r).2.1).trans (hm r)
  | ro => exact (hg r).2.1.trans (hm r)
  | mid => exact hm r

theorem prefix_get {l l' : List α} (h : l <+: l') {k : Nat} {x : α} (hx : l[k]? = some x) : l'[k]? = some x := by
  obtain ⟨t, rfl⟩ := h
  rw [List.getElem?_append_left (List.getElem?_eq_some_iff.1 hx).1]
  exact hx

theorem iter_succ_run {β γ : Type} (body : β → M I O (β ⊕ γ)) (n : Nat) (b : β) (s : Sim I O) :
    iter body (n + 1) b s = (body b >>= Sum.elim (iter body n) pure) s := by
  rw [iter, bind_run, bind_run]
  congr 1
  funext r
  cases r <;> rfl

/-- the body of `queueWait` -/
def queueWaitBody (app : Sched α) (k : Nat) (_ : Unit) : M I O (Unit ⊕ Unit) := do
  let m ← now
  if k < (app m.1 m.2).length then pure (.inr ())
  else if m.2 = .edge ∧ k < (app m.1 .ro).length then do
    resumeIn .ro
    pure (.inr ())
  else if m.2 ≠ .mid ∧ k < (app m.1 .mid).length then do
    resumeIn .mid
    pure (.inr ())
  else do
    awaitEdge
    pure (.inl ())

/-- waiting for an append: the bus does not change, and there was nothing to send at any edge of the wait -/
theorem queueWait_iter (app : Sched α) (hro : NotInReadOnly app) (k : Nat) :
    ∀ (n : Nat) (s : Sim I O), s.phase ≠ .ro → s.rest.length < n → ∃ ids : List I,
      (∀ j < ids.length, (app (s.rest.length - j) .mid).length ≤ k) ∧
      ((∃ s', iter (queueWaitBody app k) n () s = (ids.map (fun i => (s.out, i)), .blocked s') ∧ s'.out = s.out ∧ s'.rest = [] ∧
          (app 0 .mid).length ≤ k ∧ s'.rest.length + ids.length = s.rest.length) ∨
       (∃ s', iter (queueWaitBody app k) n () s = (ids.map (fun i => (s.out, i)), .ok () s') ∧ s'.out = s.out ∧ s'.phase ≠ .ro ∧
          s'.rest.length + ids.length = s.rest.length ∧ k < (app s'.rest.length s'.phase).length)) := by
  intro n
  induction n with
  | zero => intro s _ h; omega
  | succ n ih =>
    intro s hs hn
    have hnow : (now : M I O _) s = ([], .ok (s.rest.length, s.phase) s) := rfl
    have e : iter (queueWaitBody app k) (n + 1) () s = ((queueWaitBody app k () >>= Sum.elim (iter (queueWaitBody app k) n) pure : M I O Unit) s) := iter_succ_run _ _ _ _
    rw [e]
    by_cases h1 : k < (app s.rest.length s.phase).length
    · refine ⟨[], by simp, .inr ⟨s, ?_, rfl, hs, by simp, h1⟩⟩
      rw [bind_run]
      unfold queueWaitBody
      rw [bind_silent _ _ _ _ _ hnow, if_pos h1]
      rfl
    · have h2 : ¬ (s.phase = .edge ∧ k < (app s.rest.length .ro).length) := by
        rintro ⟨h, h'⟩
        rw [hro, ← h] at h'
        exact h1 h'
      by_cases h3 : s.phase ≠ .mid ∧ k < (app s.rest.length .mid).length
      · refine ⟨[], by simp, .inr ⟨{ s with phase := .mid }, ?_, rfl, by simp, by simp, h3.2⟩⟩
        rw [bind_run]
        unfold queueWaitBody
        rw [bind_silent _ _ _ _ _ hnow, if_neg h1, if_neg h2, if_pos h3]
        rfl
      · have h4 : (app s.rest.length .mid).length ≤ k := by
          cases hp : s.phase with
          | mid => rw [hp] at h1; omega
          | ro => exact absurd hp hs
          | edge =>
            have : ¬ k < (app s.rest.length .mid).length := fun h => h3 ⟨by simp [hp], h⟩
            omega
        cases hr : s.rest with
        | nil =>
          refine ⟨[], by simp, .inl ⟨s, ?_, rfl, hr, by simpa [hr] using h4, by simp [hr]⟩⟩
          rw [bind_run]
          unfold queueWaitBody
          rw [bind_silent _ _ _ _ _ hnow, if_neg h1, if_neg h2, if_neg h3, bind_awaitEdge_nil _ _ hr]
          rfl
        | cons i t =>
          obtain ⟨ids, hids, h⟩ := ih { s with phase := .edge, prev := s.cur, cur := i, rest := t } (by simp) (by
            rw [hr] at hn; simp at hn ⊢; omega)
          have e2 : (queueWaitBody app k () >>= Sum.elim (iter (queueWaitBody app k) n) pure : M I O Unit) s =
              ([(s.out, s.cur)] ++ (iter (queueWaitBody app k) n () { s with phase := .edge, prev := s.cur, cur := i, rest := t } : Res I O Unit).1,
                (iter (queueWaitBody app k) n () { s with phase := .edge, prev := s.cur, cur := i, rest := t } : Res I O Unit).2) := by
            rw [bind_run]
            unfold queueWaitBody
            rw [bind_silent _ _ _ _ _ hnow, if_neg h1, if_neg h2, if_neg h3, bind_awaitEdge_cons _ _ _ _ hr]
            rfl
          refine ⟨s.cur :: ids, ?_, ?_⟩
          · intro j hj
            cases j with
            | zero => simpa [hr] using h4
            | succ j =>
              have := hids j (by simpa using hj)
              simp only [List.length_cons]
              rwa [show t.length + 1 - (j + 1) = t.length - j by omega]
          · rcases h with ⟨s', g1, g2, g3, g4, g5⟩ | ⟨s', g1, g2, g3, g4, g5⟩
            · refine .inl ⟨s', ?_, g2, g3, g4, ?_⟩
              · rw [e2, g1]; rfl
              · simp only [List.length_cons] at g5 ⊢; omega
            · refine .inr ⟨s', ?_, g2, g3, ?_, g5⟩
              · rw [e2, g1]; rfl
              · simp only [List.length_cons] at g4 ⊢; omega

theorem queueWait_run (app : Sched α) (hro : NotInReadOnly app) (k : Nat) (s : Sim I O) (hs : s.phase ≠ .ro) :
    ∃ ids : List I, (∀ j < ids.length, (app (s.rest.length - j) .mid).length ≤ k) ∧
      ((∃ s', queueWait app k s = (ids.map (fun i => (s.out, i)), .blocked s') ∧ s'.out = s.out ∧ s'.rest = [] ∧
          (app 0 .mid).length ≤ k ∧ s'.rest.length + ids.length = s.rest.length) ∨
       (∃ s', queueWait app k s = (ids.map (fun i => (s.out, i)), .ok () s') ∧ s'.out = s.out ∧ s'.phase ≠ .ro ∧
          s'.rest.length + ids.length = s.rest.length ∧ k < (app s'.rest.length s'.phase).length)) :=
  queueWait_iter app hro k (s.rest.length + 1) s hs (by omega)

theorem stream_holds_idle (V : Stream I O P) (t : List (O × I)) (h : ∀ q ∈ t, V.valid q.1 = false) : V.Holds t := by
  induction t with
  | nil => trivial
  | cons a t ih => exact holds_cons_free V _ _ (.inl (h a (by simp))) (ih (fun q hq => h q (by simp [hq])))

/-- the wait transfers nothing -/
theorem queueWait_passes (V : Stream I O P) (app : Sched α) (hro : NotInReadOnly app) (k : Nat) (s : Sim I O)
    (hs : IdleBus V s) : Passes V ([] : List P) (queueWait app k s)
      (fun _ s' => IdleBus V s' ∧ k < (app s'.rest.length s'.phase).length) := by
  obtain ⟨ids, -, h⟩ := queueWait_run app hro k s hs.1
  have hi : ∀ q ∈ ids.map (fun i => (s.out, i)), V.valid q.1 = false := by
    intro q hq
    obtain ⟨i, -, rfl⟩ := List.mem_map.1 hq
    exact hs.2
  rcases h with ⟨s', g1, g2, -, -, -⟩ | ⟨s', g1, g2, g3, -, g5⟩
  · refine ⟨0, by simp, ?_, ?_, .inr ⟨s', by rw [g1], fun h => ?_⟩⟩
    · rw [g1]; exact taken_none V _ (fun q hq => by simp [Stream.xfer, hi q hq])
    · rw [g1]
      refine stream_holds_idle V _ (fun q hq => ?_)
      simp only [pending, List.mem_append, List.mem_singleton] at hq
      rcases hq with hq | rfl
      · exact hi q hq
      · simp only [End.sim, g2]; exact hs.2
    · rw [g2, hs.2] at h; exact absurd h (by simp)
  · refine ⟨0, by simp, ?_, ?_, .inl ⟨rfl, ?_, (), s', by rw [g1], ⟨g3, by rw [g2]; exact hs.2⟩, g5⟩⟩
    · rw [g1]; exact taken_none V _ (fun q hq => by simp [Stream.xfer, hi q hq])
    · rw [g1]
      refine stream_holds_idle V _ (fun q hq => ?_)
      simp only [pending, List.mem_append, List.mem_singleton] at hq
      rcases hq with hq | rfl
      · exact hi q hq
      · simp only [End.sim, g2]; exact hs.2
    · intro q hq
      rw [g1] at hq
      exact .inl (hi q (List.mem_of_getLast? hq))

theorem Passes.left {β : Type} (V : Stream I O P) {l l' : List P} {r : Res I O β} (h : Passes V l r (fun _ _ => False)) :
    Passes V (l ++ l') r (fun _ _ => False) := by
  obtain ⟨k, hk, h1, h3, h5⟩ := h
  refine ⟨k, by simp; omega, by rw [h1, List.take_append_of_le_length hk], h3, ?_⟩
  rcases h5 with ⟨-, -, a, s', -, h⟩ | ⟨s', h5, h6⟩
  · exact h.elim
  · refine .inr ⟨s', h5, fun h => ?_⟩
    have := h6 h
    rw [List.getElem?_append_left (List.getElem?_eq_some_iff.1 this).1]
    exact this

variable {σ : Type}

theorem queueBody_run (send : α → Bool → σ → M I O σ) (app : Sched α) (k : Nat) (synced : Bool) (v : σ) (s : Sim I O) :
    queueBody send app (k, synced, v) s = (match (app s.rest.length s.phase)[k]? with
        | some x => do
          let v ← send x (!synced) v
          pure (.inl (k + 1, true, v))
        | none => do
          queueWait app k
          let m ← now
          match (app m.1 m.2)[k]? with
          | some x => do
            let v ← send x true v
            pure (.inl (k + 1, true, v))
          | none => hang : M I O ((Nat × Bool × σ) ⊕ Empty)) s := by
  have hnow : (now : M I O _) s = ([], .ok (s.rest.length, s.phase) s) := rfl
  unfold queueBody
  rw [bind_silent _ _ _ _ _ hnow]
  rfl

/-- the queue thread sends what is appended, in order -/
theorem queue_passes (V : Stream I O P) (send : α → Bool → σ → M I O σ) (payloads : α → List P) (app : Sched α) (hg : Grows app)
    (hro : NotInReadOnly app)
    (hsend : ∀ x ∈ everything app, ∀ sync v s, s.phase ≠ .ro → Passes V (payloads x) (send x sync v s) (fun _ s' => IdleBus V s')) :
    ∀ (n k : Nat) (synced : Bool) (v : σ) (s : Sim I O), IdleBus V s →
      Passes V (((everything app).drop k).flatMap payloads) (iter (queueBody send app) n (k, synced, v) s) (fun _ _ => False) := by
  intro n
  induction n with
  | zero =>
    intro k synced v s hs
    exact ⟨0, by simp, rfl, trivial, .inr ⟨s, rfl, fun h => by rw [hs.2] at h; exact absurd h (by simp)⟩⟩
  | succ n ih =>
    intro k synced v s hs
    have hnow : ∀ s : Sim I O, (now : M I O _) s = ([], .ok (s.rest.length, s.phase) s) := fun _ => rfl
    -- sending the next transaction, then the rest
    have hone : ∀ (x : α) (sync : Bool) (s : Sim I O), (app s.rest.length s.phase)[k]? = some x → s.phase ≠ .ro →
        Passes V (((everything app).drop k).flatMap payloads)
          ((send x sync v >>= fun v' => iter (queueBody send app) n (k + 1, true, v')) s) (fun _ _ => False) := by
      intro x sync s hx hs
      have hx' : (everything app)[k]? = some x := prefix_get (grows_final app hg _ _) hx
      obtain ⟨hk, hx''⟩ := List.getElem?_eq_some_iff.1 hx'
      rw [List.drop_eq_getElem_cons hk, hx'', List.flatMap_cons]
      exact Passes.bind V (hsend x (List.mem_of_getElem? hx') sync v s hs) (fun v' s' h => ih (k + 1) true v' s' h)
    have e : iter (queueBody send app) (n + 1) (k, synced, v) s = ((queueBody send app (k, synced, v) >>= Sum.elim (iter (queueBody send app) n) pure : M I O Empty) s) :=
      iter_succ_run _ _ _ _
    rw [e]
    rw [bind_run, queueBody_run, ← bind_run]
    cases hx : (app s.rest.length s.phase)[k]? with
    | some x =>
      have := hone x (!synced) s hx hs.1
      rw [bind_assoc_run]
      exact this
    | none =>
      rw [bind_assoc_run]
      have hw := Passes.bind V (l := []) (l' := ((everything app).drop k).flatMap payloads) (queueWait_passes V app hro k s hs)
        (f := fun _ => (do
          let m ← now
          match (app m.1 m.2)[k]? with
          | some x => do
            let v ← send x true v
            pure (.inl (k + 1, true, v))
          | none => hang : M I O ((Nat × Bool × σ) ⊕ Empty)) >>= Sum.elim (iter (queueBody send app) n) pure) (post' := fun _ _ => False) (fun _ s' h => by
          rw [bind_assoc_run, bind_silent _ _ _ _ _ (hnow s')]
          have hx : (app s'.rest.length s'.phase)[k]? = some (app s'.rest.length s'.phase)[k] := List.getElem?_eq_getElem h.2
          simp only [hx]
          have := hone _ true s' hx h.1.1
          rw [bind_assoc_run]
          exact this)
      exact hw

theorem Good.queueWait (app : Sched α) (k : Nat) : Good (queueWait app k : M I O Unit) := by
  refine Good.loop _ ?_ ?_ ()
  · intro b s t b' s' h
    have hnow : (now : M I O _) s = ([], .ok (s.rest.length, s.phase) s) := rfl
    replace h : queueWaitBody app k () s = (t, .ok (.inl b') s') := h
    unfold queueWaitBody at h
    rw [bind_silent _ _ _ _ _ hnow] at h
    split at h
    · cases h
    · split at h
      · cases h
      · split at h
        · cases h
        · cases hr : s.rest with
          | nil => rw [bind_awaitEdge_nil _ _ hr] at h; cases h
          | cons i r =>
            rw [bind_awaitEdge_cons _ _ _ _ hr] at h
            cases h
            simp
  · intro b
    refine Good.bind (fun s => ⟨rfl, fun s' h => by cases h⟩) (fun m => ?_)
    refine Good.ite (Good.pure _) (Good.ite ?_ (Good.ite ?_ (Good.bind Good.awaitEdge (fun _ => Good.pure _))))
    · exact Good.bind (fun s => ⟨rfl, fun s' h => by cases h⟩) (fun _ => Good.pure _)
    · exact Good.bind (fun s => ⟨rfl, fun s' h => by cases h⟩) (fun _ => Good.pure _)

/-- an execution that lasts until the end of the schedule -/
def Complete {β : Type} (s : Sim I O) (r : Res I O β) : Prop := r.1.map Prod.snd ++ [r.2.sim.cur] = s.cur :: s.rest

theorem Complete.bind {β γ : Type} {x : M I O β} {f : β → M I O γ} {s : Sim I O} (hx : Good x) (he : ∀ t e s', x s ≠ (t, .err e s'))
    (hf : ∀ t a s', x s = (t, .ok a s') → Complete s' (f a s')) : Complete s ((x >>= f) s) := by
  have hg := hx s
  rw [bind_run]
  cases h : x s with
  | mk t e =>
    rw [h] at hg
    cases e with
    | ok a s' =>
      rw [andThen_ok]
      have := hf t a s' h
      unfold Complete at this ⊢
      simp only [List.map_append, List.append_assoc, this]
      exact hg.1.symm
    | err e s' => exact absurd h (he _ _ _)
    | blocked s' =>
      rw [andThen_blocked]
      have h1 := hg.1
      rw [show (End.blocked s' : End I O β).sim.rest = [] from hg.2 s' rfl] at h1
      exact h1.symm

theorem Passes.no_err {β : Type} {V : Stream I O P} {l : List P} {r : Res I O β} {post : β → Sim I O → Prop} (h : Passes V l r post)
    (t : List (O × I)) (e : PyErr) (s' : Sim I O) : r ≠ (t, .err e s') := by
  rintro rfl
  obtain ⟨k, -, -, -, ⟨-, -, a, s', h, -⟩ | ⟨s', h, -⟩⟩ := h <;> cases h

/-- the queue thread is alive until the end -/
theorem queue_complete (V : Stream I O P) (send : α → Bool → σ → M I O σ) (payloads : α → List P) (app : Sched α) (hg : Grows app)
    (hro : NotInReadOnly app)
    (hsend : ∀ x ∈ everything app, ∀ sync v s, s.phase ≠ .ro → Passes V (payloads x) (send x sync v s) (fun _ s' => IdleBus V s'))
    (hne : ∀ x ∈ everything app, payloads x ≠ []) (hgood : ∀ x sync v, Good (send x sync v)) :
    ∀ (n k : Nat) (synced : Bool) (v : σ) (s : Sim I O), IdleBus V s → s.rest.length < n →
      Complete s (iter (queueBody send app) n (k, synced, v) s) := by
  intro n
  induction n with
  | zero => intro k synced v s _ h; omega
  | succ n ih =>
    intro k synced v s hs hn
    have hnow : ∀ s : Sim I O, (now : M I O _) s = ([], .ok (s.rest.length, s.phase) s) := fun _ => rfl
    have hone : ∀ (x : α) (sync : Bool) (t : Sim I O), (app t.rest.length t.phase)[k]? = some x → t.phase ≠ .ro →
        t.rest.length ≤ s.rest.length →
        Complete t ((send x sync v >>= fun v' => iter (queueBody send app) n (k + 1, true, v')) t) := by
      intro x sync t hx ht hle
      have hm : x ∈ everything app := List.mem_of_getElem? (prefix_get (grows_final app hg _ _) hx)
      have hp := hsend x hm sync v t ht
      refine Complete.bind (hgood x sync v) hp.no_err (fun l a s' h => ?_)
      rw [h] at hp
      obtain ⟨j, -, g1, -, ⟨rfl, -, a', s'', g2, g3⟩ | ⟨s'', g2, -⟩⟩ := hp
      · cases g2
        refine ih (k + 1) true a s' g3 ?_
        have hl : l ≠ [] := by
          rintro rfl
          simp only [Stream.taken, List.filter_nil, List.map_nil, List.take_length] at g1
          exact hne x hm g1.symm
        have h2 := congrArg List.length (hgood x sync v t).1
        rw [h] at h2
        simp only [List.length_append, List.length_map, List.length_cons, End.sim] at h2
        have := List.length_pos_iff.2 hl
        omega
      · cases g2
    rw [iter_succ_run, bind_run, queueBody_run, ← bind_run]
    cases hx : (app s.rest.length s.phase)[k]? with
    | some x =>
      have := hone x (!synced) s hx hs.1 (Nat.le_refl _)
      rw [bind_assoc_run]
      exact this
    | none =>
      rw [bind_assoc_run]
      have hw := queueWait_passes V app hro k s hs
      have h2 := Good.queueWait (O := O) app k s
      refine Complete.bind (Good.queueWait app k) hw.no_err (fun l a s' h => ?_)
      rw [h] at hw h2
      obtain ⟨j, -, g1, -, ⟨-, -, a', s'', g2, g3, g4⟩ | ⟨s'', g2, -⟩⟩ := hw
      · cases g2
        have hx : (app s'.rest.length s'.phase)[k]? = some (app s'.rest.length s'.phase)[k] := List.getElem?_eq_getElem g4
        rw [bind_assoc_run, bind_silent _ _ _ _ _ (hnow s')]
        simp only [hx]
        have := hone _ true s' hx g3.1 (by
          have h3 := congrArg List.length h2.1
          simp only [List.length_append, List.length_map, List.length_cons, End.sim] at h3
          omega)
        rw [bind_assoc_run]
        exact this
      · cases g2

end

/-! ### Avalon-ST -/

theorem stQueue_passes (cfg : StCfg) (gen : Option (List (Nat × Nat))) (app : Sched AvVal) (hg : Grows app) (hro : NotInReadOnly app)
    (word : AvVal → LogicArray) (hx : ∀ x ∈ everything app, ∃ d, createBinary x cfg.width false = .ok d ∧ d.bits = word x)
    (s : Sim StIn StOut) (hs : s.phase ≠ .ro) :
    Passes (stStream cfg) ((everything app).map word) (stQueue cfg gen app s) (fun _ _ => False) := by
  unfold stQueue stConstruct
  rw [bind_write _ _ _ hs, List.map_eq_flatMap]
  exact queue_passes (stStream cfg) (fun x sync v => stSend cfg x sync v) (fun x => [word x]) app hg hro (fun x hm sync v s hs => by
    obtain ⟨d, h1, h2⟩ := hx x hm
    rw [← h2]
    exact stSend_passes cfg x d h1 sync v s hs) _ 0 false _ _ ⟨hs, rfl⟩

theorem pkQueue_passes (c : PkCfg) (gen : Option (List (Nat × Nat))) (n : Nat) (hb : ByteBus c n) (app : Sched (Bytes × Option Int))
    (hg : Grows app) (hro : NotInReadOnly app) (hi : ∀ p ∈ everything app, p.1 ≠ [] ∧ ChannelOk c p.2) (s : Sim PkIn PkOut)
    (hs : s.phase ≠ .ro) :
    Passes (pkStream c) ((everything app).flatMap (fun p => beatsOf c n p.1 (chNum p.2))) (pkQueue c gen app s) (fun _ _ => False) := by
  unfold pkQueue pkConstruct
  rw [bind_write _ _ _ hs]
  exact queue_passes (pkStream c) (fun x sync v => pkSend c x.1 sync x.2 v) (fun p => beatsOf c n p.1 (chNum p.2)) app hg hro
    (fun p hp sync v s hs => Passes.mono _ (Runs.passes _ (pkSend_runs c n hb p.1 (hi p hp).1 sync p.2 (hi p hp).2 v s hs))
      (fun v' s' h => ⟨by rw [h.1]; decide, by simp [pkStream, h.2.1]⟩)) _ 0 false _ { s with out := pkCleanup c s.out } ⟨hs, rfl⟩

/-! ### The next word is on offer -/

theorem prompt_cons (h : Bool) (W : Sched LogicArray) (k r : Nat) (a : StOut × StIn) (T : List (StOut × StIn))
    (hh : ∀ w, (W r .mid)[if Transfers h a then k + 1 else k]? = some w → ∀ b, T.head? = some b → b.1 = ⟨.one, w⟩)
    (hT : Prompt h W (if Transfers h a then k + 1 else k) (r - 1) T) : Prompt h W k r (a :: T) := by
  cases T with
  | nil => trivial
  | cons b t => exact ⟨fun w hw => hh w hw b rfl, hT⟩

/-- edges at which nothing is offered and nothing was to be sent -/
theorem prompt_idle (h : Bool) (W : Sched LogicArray) (k : Nat) (o : StOut) (ho : o.valid = .zero) (T : List (StOut × StIn)) (ids : List StIn) :
    ∀ r, (∀ j < ids.length, (W (r - j) .mid).length ≤ k) → Prompt h W k (r - ids.length) T →
      Prompt h W k r (ids.map (fun i => (o, i)) ++ T) := by
  induction ids with
  | nil => intro r _ hT; exact hT
  | cons i ids ih =>
    intro r hj hT
    have ht : ¬ Transfers h (o, i) := fun hh => by simp [Transfers, ho] at hh
    refine prompt_cons h W k r _ _ (fun w hw => ?_) ?_
    · rw [if_neg ht] at hw
      have := hj 0 (by simp)
      simp only [Nat.sub_zero] at this
      rw [List.getElem?_eq_none this] at hw
      cases hw
    · rw [if_neg ht]
      refine ih (r - 1) (fun j hj' => ?_) ?_
      · have := hj (j + 1) (by simp; omega)
        rwa [show r - (j + 1) = r - 1 - j by omega] at this
      · rwa [List.length_cons, show r - (ids.length + 1) = r - 1 - ids.length by omega] at hT

/-- edges at which the word is offered and not taken -/
theorem prompt_offer (h : Bool) (W : Sched LogicArray) (k : Nat) (w : LogicArray) (hW : ∀ r w', (W r .mid)[k]? = some w' → w' = w)
    (T : List (StOut × StIn)) (hd : ∀ b, T.head? = some b → b.1 = ⟨.one, w⟩) (ws : List StIn)
    (hws : ∀ i ∈ ws, h = true ∧ i.ready ≠ .one) :
    ∀ r, Prompt h W k (r - ws.length) T → Prompt h W k r (ws.map (fun i => ((⟨.one, w⟩ : StOut), i)) ++ T) ∧
      ∀ b, (ws.map (fun i => ((⟨.one, w⟩ : StOut), i)) ++ T).head? = some b → b.1 = ⟨.one, w⟩ := by
  induction ws with
  | nil => intro r hT; exact ⟨hT, hd⟩
  | cons i ws ih =>
    intro r hT
    have hi := hws i (by simp)
    have ht : ¬ Transfers h (⟨.one, w⟩, i) := fun hh => hi.2 (hh.2 hi.1)
    obtain ⟨h1, h2⟩ := ih (fun i hi => hws i (by simp [hi])) (r - 1) (by
      rwa [List.length_cons, show r - (ws.length + 1) = r - 1 - ws.length by omega] at hT)
    refine ⟨prompt_cons h W k r _ _ (fun w' hw b hb => ?_) ?_, fun b hb => ?_⟩
    · rw [if_neg ht] at hw
      rw [hW r w' hw]
      exact h2 b hb
    · rw [if_neg ht]; exact h1
    · simp at hb; rw [← hb]

/-- one word is sent -/
theorem prompt_send (cfg : StCfg) (W : Sched LogicArray) (k : Nat) (x : AvVal) (d : BinVal) (hx : createBinary x cfg.width false = .ok d)
    (hW : ∀ r w', (W r .mid)[k]? = some w' → w' = d.bits) (hW' : ∀ r, W (r + 1) .mid <+: W r .edge) (sync : Bool)
    (K : Valids → M StIn StOut Empty) (s : Sim StIn StOut) (hs : s.phase ≠ .ro)
    (hK : ∀ s' : Sim StIn StOut, s'.phase = .edge → s'.out.valid = .zero → s'.rest.length < s.rest.length →
      Prompt cfg.hasReady W (k + 1) s'.rest.length (withPending (K (setValidGenerator none) s')) ∧
      ∀ w, (W s'.rest.length .edge)[k + 1]? = some w → ∀ b, (withPending (K (setValidGenerator none) s')).head? = some b → b.1 = ⟨.one, w⟩) :
    Prompt cfg.hasReady W k s.rest.length (withPending ((stSend cfg x sync (setValidGenerator none) >>= K) s)) ∧
    (sync = false → ∀ b, (withPending ((stSend cfg x sync (setValidGenerator none) >>= K) s)).head? = some b → b.1 = ⟨.one, d.bits⟩) := by
  obtain ⟨idle, hidle, h⟩ := stSend_run cfg x d hx sync (setValidGenerator none) s hs
  have hgap : gapStep (setValidGenerator none) = (0, setValidGenerator none) := rfl
  have hgood := Good.stSend cfg x sync (setValidGenerator none) s
  rw [hgap] at h
  simp only [Nat.add_zero] at h
  rw [bind_run]
  rcases h with ⟨s', a, b, c⟩ | ⟨hl, ws, hws, h⟩
  · have hi : idle = [] := by
      cases sync <;> simp at c
      exact c
    subst hi
    rw [a, andThen_blocked]
    refine ⟨trivial, fun hsync => ?_⟩
    rw [hsync] at c
    simp at c
  · -- after the idle edge
    have hidle' : ∀ (T : List (StOut × StIn)), Prompt cfg.hasReady W k (s.rest.length - idle.length) T →
        (∀ b, T.head? = some b → b.1 = ⟨.one, d.bits⟩) → Prompt cfg.hasReady W k s.rest.length (idle ++ T) ∧
        (sync = false → ∀ b, (idle ++ T).head? = some b → b.1 = ⟨.one, d.bits⟩) := by
      intro T h1 h2
      cases sync with
      | false =>
        simp at hl
        subst hl
        exact ⟨h1, fun _ => h2⟩
      | true =>
        simp at hl
        obtain ⟨q, rfl⟩ := List.length_eq_one_iff.1 hl
        have ht : ¬ Transfers cfg.hasReady q := fun hh => by
          have := hidle q (by simp)
          rw [hh.1] at this
          cases this
        refine ⟨prompt_cons _ W k _ q T (fun w hw b hb => ?_) ?_, by simp⟩
        · rw [if_neg ht] at hw
          rw [hW _ w hw]
          exact h2 b hb
        · rw [if_neg ht]; simpa using h1
    rcases h with ⟨s', a, b, c⟩ | ⟨q, s', a, b, c, e⟩
    · rw [a, andThen_blocked]
      have e : withPending ((idle ++ ws.map (fun i => ((⟨.one, d.bits⟩ : StOut), i)), .blocked s') : Res StIn StOut Empty) =
          idle ++ (ws.map (fun i => ((⟨.one, d.bits⟩ : StOut), i)) ++ [(s'.out, s'.cur)]) := by
        simp [withPending, End.sim]
      rw [e]
      have := prompt_offer cfg.hasReady W k d.bits hW [(s'.out, s'.cur)] (by simp [b]) ws hws (s.rest.length - idle.length) trivial
      exact hidle' _ this.1 this.2
    · have hlen : s.rest.length = idle.length + ws.length + 1 + s'.rest.length := by
        have := congrArg List.length hgood.1
        rw [a] at this
        simp [End.sim] at this
        omega
      obtain ⟨hk1, hk2⟩ := hK s' e c (by omega)
      rw [a, andThen_ok]
      have e : withPending ((idle ++ ws.map (fun i => ((⟨.one, d.bits⟩ : StOut), i)) ++ [(⟨.one, d.bits⟩, q)] ++
            (K (setValidGenerator none) s').1, (K (setValidGenerator none) s').2) : Res StIn StOut Empty) =
          idle ++ (ws.map (fun i => ((⟨.one, d.bits⟩ : StOut), i)) ++ ((⟨.one, d.bits⟩, q) :: withPending (K (setValidGenerator none) s'))) := by
        simp [withPending]
      rw [e]
      have ht : Transfers cfg.hasReady ((⟨.one, d.bits⟩ : StOut), q) := ⟨rfl, b⟩
      have := prompt_offer cfg.hasReady W k d.bits hW ((⟨.one, d.bits⟩, q) :: withPending (K (setValidGenerator none) s')) (by simp) ws hws
        (s.rest.length - idle.length) (by
          refine prompt_cons _ W k _ _ _ (fun w hw b hb => ?_) ?_
          · rw [if_pos ht] at hw
            refine hk2 w ?_ b hb
            rw [show s.rest.length - idle.length - ws.length = s'.rest.length + 1 by omega] at hw
            exact prefix_get (hW' _) hw
          · rw [if_pos ht, show s.rest.length - idle.length - ws.length - 1 = s'.rest.length by omega]
            exact hk1)
      exact hidle' _ this.1 this.2

/-- the queue thread without valid generator -/
theorem queue_prompt (cfg : StCfg) (app : Sched AvVal) (hg : Grows app) (hro : NotInReadOnly app)
    (word : AvVal → LogicArray) (hx : ∀ x ∈ everything app, ∃ d, createBinary x cfg.width false = .ok d ∧ d.bits = word x) :
    ∀ (n k : Nat) (synced : Bool) (s : Sim StIn StOut), s.phase ≠ .ro → s.out.valid = .zero → s.rest.length < n →
      (synced = true → s.phase = .edge) →
      Prompt cfg.hasReady (fun r ph => (app r ph).map word) k s.rest.length
        (withPending (iter (queueBody (fun x sync v => stSend cfg x sync v) app) n (k, synced, setValidGenerator none) s)) ∧
      (synced = true → ∀ w, ((app s.rest.length .edge).map word)[k]? = some w →
        ∀ b, (withPending (iter (queueBody (fun x sync v => stSend cfg x sync v) app) n (k, synced, setValidGenerator none) s)).head? = some b →
          b.1 = ⟨.one, w⟩) := by
  intro n
  induction n with
  | zero => intro k synced s _ _ h; omega
  | succ n ih =>
    intro k synced s hs ho hn hsy
    have hnow : ∀ s : Sim StIn StOut, (now : M StIn StOut _) s = ([], .ok (s.rest.length, s.phase) s) := fun _ => rfl
    have hone : ∀ (x : AvVal) (sync : Bool) (t : Sim StIn StOut), (app t.rest.length t.phase)[k]? = some x → t.phase ≠ .ro →
        t.rest.length ≤ s.rest.length →
        Prompt cfg.hasReady (fun r ph => (app r ph).map word) k t.rest.length (withPending ((stSend cfg x sync (setValidGenerator none) >>=
          fun v' => iter (queueBody (fun x sync v => stSend cfg x sync v) app) n (k + 1, true, v')) t)) ∧
        (sync = false → ∀ b, (withPending ((stSend cfg x sync (setValidGenerator none) >>=
          fun v' => iter (queueBody (fun x sync v => stSend cfg x sync v) app) n (k + 1, true, v')) t)).head? = some b →
            b.1 = ⟨.one, word x⟩) := by
      intro x sync t hx1 ht hle
      have hxe := prefix_get (grows_final app hg _ _) hx1
      obtain ⟨d, hd, hdw⟩ := hx x (List.mem_of_getElem? hxe)
      rw [← hdw]
      refine prompt_send cfg _ k x d hd (fun r w' hw => ?_) (fun r => ?_) sync _ t ht (fun s' hp hv hl => ?_)
      · rw [List.getElem?_map] at hw
        cases hy : (app r .mid)[k]? with
        | none => rw [hy] at hw; cases hw
        | some y =>
          rw [hy] at hw
          have := prefix_get (grows_final app hg _ _) hy
          rw [hxe] at this
          simp at hw this
          rw [← hw, ← this, hdw]
      · exact List.IsPrefix.map word (hg r).2.2
      · have := ih (k + 1) true s' (by rw [hp]; decide) hv (by omega) (fun _ => hp)
        exact ⟨this.1, this.2 rfl⟩
    rw [iter_succ_run, bind_run]
    rw [queueBody_run, ← bind_run]
    cases hx1 : (app s.rest.length s.phase)[k]? with
    | some x =>
      have := hone x (!synced) s hx1 hs (Nat.le_refl _)
      simp only
      rw [bind_assoc_run]
      refine ⟨this.1, fun hsy1 w hw b hb => ?_⟩
      have hw' : word x = w := by
        rw [List.getElem?_map, ← hsy hsy1, hx1] at hw
        simpa using hw
      rw [← hw']
      exact this.2 (by rw [hsy1]; rfl) b hb
    | none =>
      refine ⟨?_, fun hsy1 w hw => ?_⟩
      · simp only
        rw [bind_assoc_run, bind_run]
        obtain ⟨ids, hids, h⟩ := queueWait_run app hro k s hs
        have hids' : ∀ j < ids.length, ((fun r ph => (app r ph).map word : Sched LogicArray) (s.rest.length - j) .mid).length ≤ k := by
          intro j hj; simpa using hids j hj
        rcases h with ⟨s', g1, g2, g3, g4, g5⟩ | ⟨s', g1, g2, g3, g4, g5⟩
        · rw [g1, andThen_blocked]
          exact prompt_idle cfg.hasReady _ k s.out ho _ ids _ hids' trivial
        · rw [g1, andThen_ok]
          have hx2 : (app s'.rest.length s'.phase)[k]? = some (app s'.rest.length s'.phase)[k] := List.getElem?_eq_getElem g5
          have := (hone _ true s' hx2 g3 (by omega)).1
          rw [bind_assoc_run, bind_silent _ _ _ _ _ (hnow s')]
          simp only [hx2]
          rw [bind_assoc_run]
          have hp := prompt_idle cfg.hasReady (fun r ph => (app r ph).map word) k s.out ho _ ids s.rest.length hids' (by
            rw [show s.rest.length - ids.length = s'.rest.length by omega]
            exact this)
          simp only [withPending, ← List.append_assoc] at hp ⊢
          exact hp
      · rw [List.getElem?_map, ← hsy hsy1, hx1] at hw
        cases hw

theorem stQueue_prompt (cfg : StCfg) (app : Sched AvVal) (hg : Grows app) (hro : NotInReadOnly app)
    (word : AvVal → LogicArray) (hx : ∀ x ∈ everything app, ∃ d, createBinary x cfg.width false = .ok d ∧ d.bits = word x)
    (s : Sim StIn StOut) (hs : s.phase ≠ .ro) :
    Prompt cfg.hasReady (fun r ph => (app r ph).map word) 0 s.rest.length (withPending (stQueue cfg none app s)) := by
  unfold stQueue stConstruct
  rw [bind_write _ _ _ hs]
  exact (queue_prompt cfg app hg hro word hx (s.rest.length + 1) 0 false
    { s with out := { valid := .zero, data := List.replicate cfg.width .x } } hs rfl (by simp) (by simp)).1

theorem stQueue_complete (cfg : StCfg) (gen : Option (List (Nat × Nat))) (app : Sched AvVal) (hg : Grows app) (hro : NotInReadOnly app)
    (word : AvVal → LogicArray) (hx : ∀ x ∈ everything app, ∃ d, createBinary x cfg.width false = .ok d ∧ d.bits = word x)
    (s : Sim StIn StOut) (hs : s.phase ≠ .ro) : Complete s (stQueue cfg gen app s) := by
  unfold stQueue stConstruct
  rw [bind_write _ _ _ hs]
  exact queue_complete (stStream cfg) (fun x sync v => stSend cfg x sync v) (fun x => [word x]) app hg hro (fun x hm sync v s hs => by
    obtain ⟨d, h1, h2⟩ := hx x hm
    rw [← h2]
    exact stSend_passes cfg x d h1 sync v s hs) (fun _ _ => by simp) (fun x sync v => Good.stSend cfg x sync v) _ 0 false _
      { s with out := { valid := .zero, data := List.replicate cfg.width .x } } ⟨hs, rfl⟩ (by simp)

theorem beatsOf_ne_nil (c : PkCfg) (n : Nat) (hn : 0 < n) (pkt : Bytes) (ch : Nat) (h : pkt ≠ []) : beatsOf c n pkt ch ≠ [] := by
  intro h0
  have h1 := congrArg List.length h0
  rw [beatsOf_eq, beatsFrom_length] at h1
  have h2 := beatCount_pos n pkt.length hn (List.length_pos_iff.2 h)
  simp at h1
  omega

theorem pkQueue_complete (c : PkCfg) (gen : Option (List (Nat × Nat))) (n : Nat) (hb : ByteBus c n) (app : Sched (Bytes × Option Int))
    (hg : Grows app) (hro : NotInReadOnly app) (hi : ∀ p ∈ everything app, p.1 ≠ [] ∧ ChannelOk c p.2) (s : Sim PkIn PkOut)
    (hs : s.phase ≠ .ro) : Complete s (pkQueue c gen app s) := by
  unfold pkQueue pkConstruct
  rw [bind_write _ _ _ hs]
  exact queue_complete (pkStream c) (fun x sync v => pkSend c x.1 sync x.2 v) (fun p => beatsOf c n p.1 (chNum p.2)) app hg hro
    (fun p hp sync v s hs => Passes.mono _ (Runs.passes _ (pkSend_runs c n hb p.1 (hi p hp).1 sync p.2 (hi p hp).2 v s hs))
      (fun v' s' h => ⟨by rw [h.1]; decide, by simp [pkStream, h.2.1]⟩))
    (fun p hp => beatsOf_ne_nil c n hb.pos p.1 _ (hi p hp).1) (fun x sync v => Good.pkSend c x.1 sync x.2 v) (s.rest.length + 1) 0 false _
    { s with out := pkCleanup c s.out } ⟨hs, rfl⟩ (Nat.lt_succ_self _)

theorem prompt_prefix (h : Bool) (W : Sched LogicArray) (u t : List (StOut × StIn)) :
    ∀ (k r : Nat), Prompt h W k r (t ++ u) → Prompt h W k r t := by
  induction t with
  | nil => intro k r _; trivial
  | cons a t ih =>
    intro k r hp
    cases t with
    | nil => trivial
    | cons b t => exact ⟨hp.1, ih _ _ hp.2⟩

theorem prompt_drop (h : Bool) (W : Sched LogicArray) (j : Nat) : ∀ (k r : Nat) (t : List (StOut × StIn)), Prompt h W k r t →
    Prompt h W (k + ((t.take j).filter (fun a => decide (Transfers h a))).length) (r - j) (t.drop j) := by
  induction j with
  | zero => intro k r t ht; simpa using ht
  | succ j ih =>
    intro k r t ht
    match t with
    | [] => trivial
    | [a] => simp [Prompt]
    | a :: b :: t =>
      have := ih _ _ _ ht.2
      rw [show r - 1 - j = r - (j + 1) by omega] at this
      rw [List.take_succ_cons, List.drop_succ_cons]
      by_cases hx : Transfers h a
      · rw [if_pos hx] at this
        rw [List.filter_cons_of_pos (by simpa using hx), List.length_cons]
        rwa [show k + (((b :: t).take j).filter (fun a => decide (Transfers h a))).length.succ =
          k + 1 + (((b :: t).take j).filter (fun a => decide (Transfers h a))).length by omega]
      · rw [if_neg hx] at this
        rwa [List.filter_cons_of_neg (by simpa using hx)]

/-- when nothing more is appended, every edge but the first at which the sink can take transfers a word -/
theorem prompt_progress (h : Bool) (W : Sched LogicArray) (N : Nat) (T : List (StOut × StIn)) :
    ∀ (k r : Nat) (a : StOut × StIn), Prompt h W k r (a :: T) → (∀ r' ≤ r, (W r' .mid).length = N) →
      N ≤ k + ((a :: T).filter (fun a => decide (Transfers h a))).length ∨
      T.countP (fun a => decide (CanTake h a.2)) ≤ (T.filter (fun a => decide (Transfers h a))).length := by
  induction T with
  | nil => intro k r a _ _; exact .inr (by simp)
  | cons b T ih =>
    intro k r a hp hN
    have h1 := ih _ _ _ hp.2 (fun r' hr => hN r' (by omega))
    have hlen : k + ((a :: b :: T).filter (fun a => decide (Transfers h a))).length =
        (if Transfers h a then k + 1 else k) + ((b :: T).filter (fun a => decide (Transfers h a))).length := by
      by_cases hx : Transfers h a
      · rw [if_pos hx, List.filter_cons_of_pos (by simpa using hx), List.length_cons]; omega
      · rw [if_neg hx, List.filter_cons_of_neg (by simpa using hx)]
    rw [hlen]
    rcases h1 with h1 | h1
    · exact .inl h1
    · by_cases hk : N ≤ (if Transfers h a then k + 1 else k)
      · exact .inl (by omega)
      · refine .inr ?_
        have hb : b.1.valid = .one := by
          have hg : (if Transfers h a then k + 1 else k) < (W r .mid).length := by rw [hN r (Nat.le_refl _)]; omega
          rw [hp.1 _ (List.getElem?_eq_getElem hg)]
        by_cases hc : CanTake h b.2
        · have ht : Transfers h b := ⟨hb, hc⟩
          rw [List.countP_cons_of_pos (by simpa using hc), List.filter_cons_of_pos (by simpa using ht), List.length_cons]
          omega
        · rw [List.countP_cons_of_neg (by simpa using hc)]
          refine Nat.le_trans h1 ?_
          rw [List.filter_cons]
          split <;> simp

theorem prompt_delivers (h : Bool) (W : Sched LogicArray) (N r0 r : Nat) (t : List (StOut × StIn)) (hp : Prompt h W 0 r t)
    (hN : ∀ r' ≤ r0, (W r' .mid).length = N) (hr : r0 ≤ r)
    (hc : N ≤ (t.drop (r - r0 + 1)).countP (fun a => decide (CanTake h a.2))) :
    N ≤ (t.filter (fun a => decide (Transfers h a))).length := by
  have h1 := prompt_drop h W (r - r0) 0 r t hp
  have h2 : (t.filter (fun a => decide (Transfers h a))).length = ((t.take (r - r0)).filter (fun a => decide (Transfers h a))).length +
      ((t.drop (r - r0)).filter (fun a => decide (Transfers h a))).length := by
    conv => lhs; rw [← List.take_append_drop (r - r0) t]
    rw [List.filter_append, List.length_append]
  cases hd : t.drop (r - r0) with
  | nil =>
    have : t.drop (r - r0 + 1) = [] := by
      rw [List.drop_eq_nil_iff] at hd ⊢
      omega
    rw [this] at hc
    simp at hc
    omega
  | cons a T =>
    rw [hd] at h1 h2
    have hT : t.drop (r - r0 + 1) = T := by rw [← List.drop_drop, hd]; rfl
    rw [hT] at hc
    rw [show r - (r - r0) = r0 by omega] at h1
    rcases prompt_progress h W N T _ _ a h1 hN with h3 | h3
    · omega
    · have : (T.filter (fun a => decide (Transfers h a))).length ≤ ((a :: T).filter (fun a => decide (Transfers h a))).length := by
        rw [List.filter_cons]
        split <;> simp
      omega

end CocotbBus
