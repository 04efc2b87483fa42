import Verif.Proof.AvalonPktsMon
import Verif.Spec.Session
import Verif.Proof.Scoreboard

/-! # Uses of a driver over time -/

namespace CocotbBus
open Spec Coro

variable {I O P α : Type} (V : Stream I O P)

/-- Result of a program that transfers the payloads `l`, with idle edges anywhere between them. -/
def Passes {β : Type} (l : List P) (r : Res I O β) (post : β → Sim I O → Prop) : Prop :=
  ∃ k ≤ l.length, V.taken r.1 = l.take k ∧ V.Holds (pending r) ∧
    ((k = l.length ∧ (∀ q, r.1.getLast? = some q → V.valid q.1 = false ∨ V.ready q.2 = true) ∧ ∃ a s', r.2 = .ok a s' ∧ post a s') ∨
     ∃ s', r.2 = .blocked s' ∧ (V.valid s'.out = true → l[k]? = some (V.payload s'.out)))

variable {β γ : Type}

theorem Runs.passes {l : List P} {ns : List Nat} {r : Res I O β} {post : β → Sim I O → Prop} (h : Runs V l ns r post) :
    Passes V l r post := by
  obtain ⟨k, hk, h1, -, h3, -, h5⟩ := h
  refine ⟨k, hk, h1, h3, ?_⟩
  rcases h5 with ⟨h5, -, h6, h7⟩ | ⟨-, h5⟩
  · refine .inl ⟨h5, fun q hq => .inr ?_, h7⟩
    have := h6 q hq
    simp [Stream.xfer] at this
    exact this.2
  · exact .inr h5

theorem Passes.bind {l l' : List P} {x : M I O β} {f : β → M I O γ} {s : Sim I O}
    {post : β → Sim I O → Prop} {post' : γ → Sim I O → Prop}
    (h : Passes V l (x s) post) (hf : ∀ a s', post a s' → Passes V l' (f a s') post') :
    Passes V (l ++ l') ((x >>= f) s) post' := by
  obtain ⟨k, hk, h1, h3, h5⟩ := h
  rw [bind_run]
  rcases h5 with ⟨rfl, hlast, a, s', he, hp⟩ | ⟨s', he, hfl⟩
  · have hx : x s = ((x s).1, .ok a s') := by rw [← he]
    obtain ⟨k', hk', g1, g3, g5⟩ := hf a s' hp
    rw [hx, andThen_ok]
    refine ⟨l.length + k', by simp; omega, ?_, ?_, ?_⟩
    · rw [taken_append, h1, g1, List.take_length, List.take_length_add_append]
    · simp only [pending, List.append_assoc]
      exact holds_append_free V _ _ (holds_append_left V _ _ h3) g3 hlast
    · rcases g5 with ⟨rfl, g7, b, s2, g8, g9⟩ | ⟨s2, g6, g7⟩
      · refine .inl ⟨by simp, ?_, b, s2, g8, g9⟩
        intro q hq
        rw [List.getLast?_append] at hq
        cases hg : (f a s').1.getLast? with
        | none => rw [hg] at hq; exact hlast q (by simpa using hq)
        | some q' => rw [hg] at hq; simp at hq; subst hq; exact g7 q' hg
      · refine .inr ⟨s2, g6, fun h => ?_⟩
        rw [List.getElem?_append_right (by omega), ← g7 h]
        congr 1
        omega
  · have hx : x s = ((x s).1, .blocked s') := by rw [← he]
    have hpend : pending (x s) = (x s).1 ++ [(s'.out, s'.cur)] := by rw [pending, he]; rfl
    rw [hx, andThen_blocked]
    refine ⟨k, by simp; omega, ?_, ?_, .inr ⟨s', rfl, fun h => ?_⟩⟩
    · rw [h1, List.take_append_of_le_length hk]
    · rw [hpend] at h3; exact h3
    · have := hfl h
      rw [List.getElem?_append_left (List.getElem?_eq_some_iff.1 this).1]; exact this

theorem Passes.mono {l : List P} {r : Res I O β} {post post' : β → Sim I O → Prop}
    (h : Passes V l r post) (hp : ∀ a s, post a s → post' a s) : Passes V l r post' := by
  obtain ⟨k, hk, h1, h3, h5⟩ := h
  refine ⟨k, hk, h1, h3, ?_⟩
  rcases h5 with ⟨h5, h7, a, s', h8, h9⟩ | h5
  · exact .inl ⟨h5, h7, a, s', h8, hp _ _ h9⟩
  · exact .inr h5

theorem Passes.pure (a : β) (s : Sim I O) (post : β → Sim I O → Prop) (h : post a s) :
    Passes V [] (([], .ok a s) : Res I O β) post :=
  ⟨0, by simp, rfl, trivial, .inl ⟨rfl, by simp, a, s, rfl, h⟩⟩

/-- idle: not in the ReadOnly phase, and nothing offered -/
def IdleBus (s : Sim I O) : Prop := s.phase ≠ .ro ∧ V.valid s.out = false

theorem passes_edges (n : Nat) : ∀ s : Sim I O, IdleBus V s →
    Passes V [] ((edges n : M I O Unit) s) (fun _ s' => IdleBus V s') := by
  induction n with
  | zero => intro s hs; exact Passes.pure V () s _ hs
  | succ n ih =>
    intro s hs
    have h1 : Passes V ([] : List P) ((awaitEdge : M I O Unit) s) (fun _ s' => IdleBus V s') := by
      cases hr : s.rest with
      | nil =>
        rw [awaitEdge_nil s hr]
        exact ⟨0, by simp, rfl, trivial, .inr ⟨s, rfl, fun h => by simp [hs.2] at h⟩⟩
      | cons i r =>
        rw [awaitEdge_cons s i r hr]
        refine ⟨0, by simp, taken_none V _ ?_, holds_cons_free V _ _ (.inl hs.2) trivial, .inl ⟨rfl, ?_, (), _, rfl, ⟨by simp, hs.2⟩⟩⟩
        · intro q hq
          simp only [List.mem_singleton] at hq
          subst hq
          simp [Stream.xfer, hs.2]
        · intro q hq
          simp only [List.getLast?_singleton, Option.some.injEq] at hq
          subst hq
          exact .inl hs.2
    exact Passes.bind V h1 (fun a s' h => ih s' h)

/-- any use of a driver whose sends transfer the right payloads -/
theorem session_passes (send : α → Valids → M I O Valids) (good : α → Prop) (payloads : α → List P)
    (hsend : ∀ x v s, good x → s.phase ≠ .ro → Passes V (payloads x) (send x v s) (fun _ s' => IdleBus V s'))
    (acts : List (Act α)) : (∀ x ∈ sends acts, good x) → ∀ (v : Valids) (s : Sim I O), IdleBus V s →
    Passes V ((sends acts).flatMap payloads) (session send acts v s) (fun _ s' => IdleBus V s') := by
  induction acts with
  | nil => intro _ v s hs; exact Passes.pure V v s _ hs
  | cons a r ih =>
    intro hg v s hs
    cases a with
    | send x =>
      refine Passes.bind V (hsend x v s (hg x (by simp [sends])) hs.1) (fun v' s' h => ?_)
      exact ih (fun y hy => hg y (by simp [sends, hy])) v' s' h
    | pause n =>
      have := Passes.bind V (l := []) (passes_edges V n s hs) (fun (_ : Unit) s' h => ih hg v s' h)
      exact this
    | step =>
      have h1 : Passes V ([] : List P) ((nextStep : M I O Unit) s) (fun _ s' => IdleBus V s') :=
        Passes.pure V () _ _ ⟨by simp, hs.2⟩
      exact Passes.bind V h1 (fun (_ : Unit) s' h => ih hg v s' h)
    | gen g => exact ih hg (setValidGenerator g) s hs

theorem Good.session (send : α → Valids → M I O Valids) (h : ∀ x v, Good (send x v)) (acts : List (Act α)) :
    ∀ v, Good (session send acts v) := by
  induction acts with
  | nil => intro v; exact Good.pure v
  | cons a r ih =>
    intro v
    cases a with
    | send x => exact Good.bind (h x v) (fun v' => ih v')
    | pause n => exact Good.bind (Good.edges n) (fun _ => ih v)
    | step => exact Good.bind Good.nextStep (fun _ => ih v)
    | gen g => exact ih (setValidGenerator g)

/-! ### Avalon-ST -/

/-- the bus as a stream of words -/
def stStream (cfg : StCfg) : Stream StIn StOut LogicArray where
  valid o := o.valid == .one
  ready i := !cfg.hasReady || i.ready == .one
  payload o := o.data

theorem stStream_xfer (cfg : StCfg) (r : StOut × StIn) : (stStream cfg).xfer r = decide (Transfers cfg.hasReady r) := by
  obtain ⟨⟨v, d⟩, ⟨i⟩⟩ := r
  unfold Stream.xfer stStream Transfers
  cases cfg.hasReady <;> cases v <;> cases i <;> simp

theorem transferred_taken_eq (cfg : StCfg) (t : List (StOut × StIn)) : transferred cfg.hasReady t = (stStream cfg).taken t := by
  have h : (stStream cfg).xfer = (fun r => decide (Transfers cfg.hasReady r)) := funext (stStream_xfer cfg)
  simp only [transferred, Stream.taken, h]
  rfl

theorem holdsUntilTaken_eq (cfg : StCfg) (t : List (StOut × StIn)) (h : (stStream cfg).Holds t) : HoldsUntilTaken cfg.hasReady t := by
  induction t with
  | nil => trivial
  | cons a t ih =>
    cases t with
    | nil => trivial
    | cons b t =>
      refine ⟨fun h1 h2 => ?_, ih h.2⟩
      have h3 := h.1 (by simp [stStream, h1]) (by
        have := stStream_xfer cfg a
        simp only [h2, decide_false, Stream.xfer] at this
        simpa [stStream, h1] using this)
      obtain ⟨⟨v, d⟩, i⟩ := a
      obtain ⟨⟨v', d'⟩, i'⟩ := b
      simp only [stStream, beq_iff_eq] at h3 h1
      simp [h1, h3.1, h3.2]

theorem stSend_passes (cfg : StCfg) (x : AvVal) (d : BinVal) (hx : createBinary x cfg.width false = .ok d) (sync : Bool) (v : Valids)
    (s : Sim StIn StOut) (hs : s.phase ≠ .ro) :
    Passes (stStream cfg) [d.bits] (stSend cfg x sync v s) (fun _ s' => IdleBus (stStream cfg) s') := by
  obtain ⟨idle, hi, h⟩ := stSend_run cfg x d hx sync v s hs
  have hi' : ∀ q ∈ idle, (stStream cfg).valid q.1 = false := fun q hq => by simp [stStream, hi q hq]
  apply Runs.passes (ns := [(if sync then 1 else 0) + (gapStep v).1])
  apply Offers.runs
  rcases h with ⟨s', a, b, c⟩ | ⟨hl, ws, hws, ⟨s', a, b, c⟩ | ⟨q, s', a, b, c, e⟩⟩
  · exact ⟨idle, [], hi', by simp, .inl ⟨s', a, by simp [stStream, b], Nat.le_of_lt c⟩⟩
  · refine ⟨idle, ws.map (fun i => (⟨.one, d.bits⟩, i)), hi', ?_, .inr ⟨hl, .inl ⟨s', a, by simp [stStream, b], by simp [stStream, b]⟩⟩⟩
    intro q hq
    obtain ⟨i, hm, rfl⟩ := List.mem_map.1 hq
    have := hws i hm
    simp [stStream, this.1, this.2]
  · refine ⟨idle, ws.map (fun i => (⟨.one, d.bits⟩, i)), hi', ?_, .inr ⟨hl, .inr ⟨_, _, s', a, rfl, rfl, ?_, ?_, ?_⟩⟩⟩
    · intro q hq
      obtain ⟨i, hm, rfl⟩ := List.mem_map.1 hq
      have := hws i hm
      simp [stStream, this.1, this.2]
    · simp only [stStream]
      cases hr : cfg.hasReady with
      | false => rfl
      | true => simp [b hr]
    · rw [e]; decide
    · simp [stStream, c]

/-- a complete use of an Avalon-ST driver -/
theorem stTest_passes (cfg : StCfg) (acts : List (Act (AvVal × Bool))) (word : AvVal → LogicArray)
    (hx : ∀ x ∈ sends acts, ∃ d, createBinary x.1 cfg.width false = .ok d ∧ d.bits = word x.1)
    (s : Sim StIn StOut) (hs : s.phase ≠ .ro) :
    Passes (stStream cfg) ((sends acts).map (fun x => word x.1)) (stTest cfg acts s) (fun _ s' => IdleBus (stStream cfg) s') := by
  unfold stTest stConstruct
  rw [bind_write _ _ _ hs]
  have h := session_passes (stStream cfg) (fun (x : AvVal × Bool) v => stSend cfg x.1 x.2 v)
    (fun x => ∃ d, createBinary x.1 cfg.width false = .ok d ∧ d.bits = word x.1) (fun x => [word x.1])
    (fun x v s hd hs => by
      obtain ⟨d, h1, h2⟩ := hd
      rw [← h2]
      exact stSend_passes cfg x.1 d h1 x.2 v s hs) acts hx (setValidGenerator none)
    { s with out := { valid := .zero, data := List.replicate cfg.width .x } } ⟨hs, rfl⟩
  rw [List.map_eq_flatMap]
  exact h

/-! ### Packets -/

theorem pkTest_passes (c : PkCfg) (n : Nat) (hb : ByteBus c n) (acts : List (Act PkItem))
    (hi : ∀ p ∈ sends acts, p.pkt ≠ [] ∧ ChannelOk c p.channel) (s : Sim PkIn PkOut) (hs : s.phase ≠ .ro) :
    Passes (pkStream c) ((sends acts).flatMap (fun p => beatsOf c n p.pkt (chNum p.channel))) (pkTest c acts s)
      (fun _ s' => IdleBus (pkStream c) s') := by
  unfold pkTest pkConstruct
  rw [bind_write _ _ _ hs]
  exact session_passes (pkStream c) (fun (p : PkItem) v => pkSend c p.pkt p.sync p.channel v)
    (fun p => p.pkt ≠ [] ∧ ChannelOk c p.channel) (fun p => beatsOf c n p.pkt (chNum p.channel))
    (fun p v s hp hs => Passes.mono _ (Runs.passes _ (pkSend_runs c n hb p.pkt hp.1 p.sync p.channel hp.2 v s hs))
      (fun v' s' h => ⟨by rw [h.1]; decide, by simp [pkStream, h.2.1]⟩)) acts hi (setValidGenerator none)
    { s with out := pkCleanup c s.out } ⟨hs, rfl⟩

theorem Good.pkTest (c : PkCfg) (acts : List (Act PkItem)) : Good (pkTest c acts) :=
  Good.bind (Good.write _) (fun _ => Good.session _ (fun p v => Good.pkSend c p.pkt p.sync p.channel v) acts _)

theorem Good.stTest (cfg : StCfg) (acts : List (Act (AvVal × Bool))) : Good (stTest cfg acts) :=
  Good.bind (Good.write _) (fun _ => Good.session _ (fun x v => Good.stSend cfg x.1 x.2 v) acts _)

/-! ### Scoreboards that receive what they expect -/

/-- acceptable transactions, at most as many as expected: no exception, no error, and the others remain expected -/
theorem feed_exact {T : Type} (ops : TxnOps T) (name : Option String) (ref : Nat) (strict : Bool) (R : List T) (n : Nat) (sb : SB T)
    (h : ∃ E', sb.heap ref = R ++ E') (hacc : ∀ a, Accepts ops strict a a) :
    ∃ sb', feed (checkReceived ops (busMonitor name) (.list ref) 0 strict) R n sb = (sb', none) ∧
      sb'.expected = sb.expected ∧ sb'.heap ref = (sb.heap ref).drop R.length ∧ sb'.errors = sb.errors := by
  induction R generalizing n sb with
  | nil => exact ⟨sb, rfl, rfl, by simp, rfl⟩
  | cons t r ih =>
    obtain ⟨E', hE⟩ := h
    unfold feed
    obtain ⟨e', he', hc⟩ := check_nonempty ops (busMonitor name) (by simp [busMonitor]) ref 0 strict t sb (by simp [hE])
    rw [hE, List.cons_append, reorderIndex_zero] at he' hc
    simp at he'
    subst he'
    rw [hc, compare_accept _ _ _ _ _ (hacc t)]
    obtain ⟨sb', h1, h2, h3, h4⟩ := ih (n + 1) (sb.setList ref ((t :: (r ++ E')).eraseIdx 0)) ⟨E', by simp [SB.setList]⟩
    refine ⟨sb', h1, h2, ?_, h4⟩
    rw [h3, hE]
    simp [SB.setList]

end CocotbBus
