import Verif.Proof.AxiReadProps
import Verif.Spec.AxiUse
import Verif.Props.AxiRead
import Verif.Proof.AxiStutter

/-! # AXI4 masters and a memory -/

namespace CocotbBus
open Spec Coro

/-! ### The memory -/

theorem axRun_append (c : AxCfg) (m : AxMem) (t u : List (AxAll × AxIn)) : AxMem.run c m (t ++ u) = AxMem.run c (AxMem.run c m t) u := by
  simp [AxMem.run]

theorem serves_append (c : AxCfg) (t u : List (AxAll × AxIn)) : ∀ m : AxMem,
    AxMem.Serves c m (t ++ u) ↔ AxMem.Serves c m t ∧ AxMem.Serves c (AxMem.run c m t) u := by
  induction t with
  | nil => intro m; simp [AxMem.Serves, AxMem.run]
  | cons q t ih =>
    intro m
    simp only [List.cons_append, AxMem.Serves, ih, AxMem.run, List.foldl_cons, and_assoc]

/-- no transfers of addresses and write data -/
def QuietAt (c : AxCfg) (q : AxAll × AxIn) : Prop :=
  (awStream c).xfer (q.1.1.1, q.2) = false ∧ (wStream c).xfer (q.1.1.2, q.2) = false ∧ (arStream c).xfer (q.1.2, q.2) = false

theorem step_rest (c : AxCfg) (E : Nat → Nat → Nat) (kr : Nat) (mem : Nat → Byte) (b : Option Nat) (q : AxAll × AxIn) (h : QuietAt c q) :
    AxMem.step c ⟨mem, none, [], none, b, kr, E⟩ q = ⟨mem, none, [], none, if bFire q.2 then none else b, kr, E⟩ := by
  obtain ⟨h1, h2, h3⟩ := h
  simp [AxMem.step, AxMem.commit, h1, h2, h3]

theorem run_rest (c : AxCfg) (E : Nat → Nat → Nat) (kr : Nat) (mem : Nat → Byte) (t : List (AxAll × AxIn)) : ∀ b, (∀ q ∈ t, QuietAt c q) →
    ∃ b', AxMem.run c ⟨mem, none, [], none, b, kr, E⟩ t = ⟨mem, none, [], none, b', kr, E⟩ ∧ ((∀ q ∈ t, bFire q.2 = false) → b' = b) ∧ (b = none → b' = none) := by
  induction t with
  | nil => intro b _; exact ⟨b, rfl, fun _ => rfl, id⟩
  | cons q t ih =>
    intro b h
    obtain ⟨b', e1, e2, e3⟩ := ih (if bFire q.2 then none else b) (fun q hq => h q (by simp [hq]))
    refine ⟨b', ?_, ?_, ?_⟩
    · show AxMem.run c (AxMem.step c ⟨mem, none, [], none, b, kr, E⟩ q) t = _
      rw [step_rest c E kr mem b q (h q (by simp))]
      exact e1
    · intro hb
      rw [e2 (fun q hq => hb q (by simp [hq])), hb q (by simp)]
      rfl
    · intro hb
      refine e3 ?_
      rw [hb]
      simp

theorem step_idle (c : AxCfg) (E : Nat → Nat → Nat) (kr : Nat) (mem : Nat → Byte) (q : AxAll × AxIn) (h : QuietAt c q) :
    (AxMem.idle E kr mem).step c q = AxMem.idle E kr mem := by
  unfold AxMem.idle
  rw [step_rest c E kr mem none q h]
  simp

theorem run_idle (c : AxCfg) (E : Nat → Nat → Nat) (kr : Nat) (mem : Nat → Byte) (t : List (AxAll × AxIn)) (h : ∀ q ∈ t, QuietAt c q) :
    AxMem.run c (AxMem.idle E kr mem) t = AxMem.idle E kr mem := by
  obtain ⟨b', e1, _, e3⟩ := run_rest c E kr mem t none h
  unfold AxMem.idle
  rw [e1, e3 rfl]

/-- the records of one channel -/
def awOf (t : List (AxAll × AxIn)) : List (AddrOut × AxIn) := t.map (fun q => (q.1.1.1, q.2))
def wOf (t : List (AxAll × AxIn)) : List (WOut × AxIn) := t.map (fun q => (q.1.1.2, q.2))

theorem taken_cons {I O P : Type} (V : Stream I O P) (q : O × I) (t : List (O × I)) :
    V.taken (q :: t) = (if V.xfer q then [V.payload q.1] else []) ++ V.taken t := by
  unfold Stream.taken
  rw [List.filter_cons]
  split <;> simp

theorem taken_nil_quiet {I O P : Type} (V : Stream I O P) (t : List (O × I)) (h : V.taken t = []) : ∀ q ∈ t, V.xfer q = false := by
  unfold Stream.taken at h
  rw [List.map_eq_nil_iff, List.filter_eq_nil_iff] at h
  intro q hq
  simpa using h q hq

/-- what a write burst makes of a memory -/
def burstMem (c : AxCfg) (p : AddrReq) (ws : List WReq) (mem : Nat → Byte) : Nat → Byte :=
  axiStoreAll c.dataBytes (p.decode c.dataBytes).2.1 (p.decode c.dataBytes).2.2.1 (p.decode c.dataBytes).1
    (p.decode c.dataBytes).2.2.2 0 (ws.map (fun w => (bitsToNat w.data, bitsToNat w.strb))) mem

/-- a write burst, in whatever order its address and its data are accepted -/
theorem run_write (c : AxCfg) (E : Nat → Nat → Nat) (kr : Nat) (p : AddrReq) (ws : List WReq) (mem : Nat → Byte) (hlen : (p.decode c.dataBytes).2.2.2 = ws.length)
    (t : List (AxAll × AxIn)) :
    ∀ (oa : Option AddrReq) (ws0 : List WReq) (b : Option Nat), oa.toList ++ (awStream c).taken (awOf t) = [p] → ws0 ++ (wStream c).taken (wOf t) = ws →
      (oa = none ∨ ws0.length < ws.length) → (∀ q ∈ t, (arStream c).xfer (q.1.2, q.2) = false) →
      ∃ b', AxMem.run c ⟨mem, oa, ws0, none, b, kr, E⟩ t = ⟨if E kr 0 = 0 then burstMem c p ws mem else mem, none, [], none, b', kr + 1, E⟩ ∧
        ∀ q, t.getLast? = some q → (awStream c).xfer (q.1.1.1, q.2) = true ∨ (wStream c).xfer (q.1.1.2, q.2) = true → b' = some (E kr 0) := by
  induction t with
  | nil =>
    intro oa ws0 b h1 h2 h3 _
    have h1 : oa.toList = [p] := by simpa [awOf, Stream.taken] using h1
    have h2 : ws0 = ws := by simpa [wOf, Stream.taken] using h2
    rcases h3 with rfl | h3
    · simp at h1
    · rw [h2] at h3; omega
  | cons q t ih =>
    intro oa ws0 b h1 h2 h3 har
    have har0 : (arStream c).xfer (q.1.2, q.2) = false := har q (by simp)
    have har' : ∀ q ∈ t, (arStream c).xfer (q.1.2, q.2) = false := fun q hq => har q (by simp [hq])
    have e1 : awOf (q :: t) = (q.1.1.1, q.2) :: awOf t := rfl
    have e2 : wOf (q :: t) = (q.1.1.2, q.2) :: wOf t := rfl
    rw [e1, taken_cons] at h1
    rw [e2, taken_cons] at h2
    show ∃ b', AxMem.run c (AxMem.step c ⟨mem, oa, ws0, none, b, kr, E⟩ q) t = _ ∧ _
    -- the address and the data known after this edge
    obtain ⟨oa', hoa', h1'⟩ : ∃ oa', (if (awStream c).xfer (q.1.1.1, q.2) then some ((awStream c).payload q.1.1.1) else oa) = oa' ∧
        oa'.toList ++ (awStream c).taken (awOf t) = [p] := by
      refine ⟨_, rfl, ?_⟩
      by_cases hx : (awStream c).xfer (q.1.1.1, q.2) = true
      · rw [if_pos hx] at h1 ⊢
        cases oa with
        | none => simpa using h1
        | some p' => exfalso; have := congrArg List.length h1; simp at this
      · rw [if_neg hx] at h1 ⊢
        simpa using h1
    obtain ⟨ws', hws', h2'⟩ : ∃ ws', (if (wStream c).xfer (q.1.1.2, q.2) then ws0 ++ [(wStream c).payload q.1.1.2] else ws0) = ws' ∧
        ws' ++ (wStream c).taken (wOf t) = ws := by
      refine ⟨_, rfl, ?_⟩
      by_cases hx : (wStream c).xfer (q.1.1.2, q.2) = true
      · rw [if_pos hx] at h2 ⊢
        simpa using h2
      · rw [if_neg hx] at h2 ⊢
        simpa using h2
    have hst : AxMem.step c ⟨mem, oa, ws0, none, b, kr, E⟩ q = AxMem.commit c ⟨mem, oa', ws', none, if bFire q.2 then none else b, kr, E⟩ := by
      simp only [AxMem.step, hoa', hws', har0, Bool.false_eq_true, if_false]
    rw [hst]
    generalize (if bFire q.2 then none else b) = b1
    -- the last edge is in the rest
    have hlast : ∀ b' : Option Nat, (∀ q, t.getLast? = some q → (awStream c).xfer (q.1.1.1, q.2) = true ∨ (wStream c).xfer (q.1.1.2, q.2) = true → b' = some (E kr 0)) →
        t ≠ [] → ∀ ql, (q :: t).getLast? = some ql → (awStream c).xfer (ql.1.1.1, ql.2) = true ∨ (wStream c).xfer (ql.1.1.2, ql.2) = true → b' = some (E kr 0) := by
      intro b' h hne ql hl
      cases t with
      | nil => exact absurd rfl hne
      | cons q' t => rw [List.getLast?_cons_cons] at hl; exact h ql hl
    cases oa' with
    | none =>
      show ∃ b', AxMem.run c ⟨mem, none, ws', none, b1, kr, E⟩ t = _ ∧ _
      obtain ⟨b', i1, i2⟩ := ih none ws' b1 h1' h2' (.inl rfl) har'
      refine ⟨b', i1, hlast b' i2 ?_⟩
      rintro rfl
      simp [awOf, Stream.taken] at h1'
    | some p' =>
      have hp : p' = p ∧ (awStream c).taken (awOf t) = [] := by simpa using h1'
      obtain ⟨rfl, haw⟩ := hp
      by_cases hc : ws'.length = ws.length
      · have hw : (wStream c).taken (wOf t) = [] := by
          have := congrArg List.length h2'
          rw [List.length_append] at this
          exact List.eq_nil_of_length_eq_zero (by omega)
        have hws : ws' = ws := by rw [hw] at h2'; simpa using h2'
        subst hws
        have hcm : AxMem.commit c ⟨mem, some p', ws', none, b1, kr, E⟩ = ⟨if E kr 0 = 0 then burstMem c p' ws' mem else mem, none, [], none, some (E kr 0), kr + 1, E⟩ := by
          simp [AxMem.commit, hlen, burstMem]
        rw [hcm]
        have hquiet : ∀ x ∈ t, QuietAt c x := by
          intro x hx
          exact ⟨taken_nil_quiet _ _ haw _ (List.mem_map_of_mem hx), taken_nil_quiet _ _ hw _ (List.mem_map_of_mem hx), har' x hx⟩
        obtain ⟨b', i1, i2, _⟩ := run_rest c E (kr + 1) (if E kr 0 = 0 then burstMem c p' ws' mem else mem) t (some (E kr 0)) hquiet
        refine ⟨b', i1, ?_⟩
        intro ql hl hx
        cases t with
        | nil => exact i2 (by simp)
        | cons q' t =>
          rw [List.getLast?_cons_cons] at hl
          obtain ⟨x1, x2, _⟩ := hquiet ql (List.mem_of_getLast? hl)
          rw [x1, x2] at hx
          simp at hx
      · have hcm : AxMem.commit c ⟨mem, some p', ws', none, b1, kr, E⟩ = ⟨mem, some p', ws', none, b1, kr, E⟩ := by
          simp [AxMem.commit, hlen, hc]
        rw [hcm]
        have hlt : ws'.length < ws.length := by
          have := congrArg List.length h2'
          rw [List.length_append] at this
          omega
        obtain ⟨b', i1, i2⟩ := ih (some p') ws' b1 h1' h2' (.inr hlt) har'
        refine ⟨b', i1, hlast b' i2 ?_⟩
        rintro rfl
        apply hc
        rw [← h2']
        simp [wOf, Stream.taken]

/-- beat number `n` of the answer to `p` -/
def BeatOf (c : AxCfg) (code : Nat → Nat) (mem : Nat → Byte) (p : AddrReq) (n : Nat) (i : AxIn) : Prop :=
  respIs i.rresp (code n) ∧ i.rdata.length = 8 * c.dataBytes ∧
  (code n = 0 → ∀ b, InBeat (p.decode c.dataBytes).2.1 (p.decode c.dataBytes).2.2.1 (p.decode c.dataBytes).1 (p.decode c.dataBytes).2.2.2 n b →
    lane i.rdata (b % c.dataBytes) = byteBits (mem b))

/-- the beats of a trace -/
def beatsIn (t : List (AxAll × AxIn)) : List AxIn := (t.map Prod.snd).filter rFire

theorem right_beat {c : AxCfg} {E : Nat → Nat → Nat} {kr : Nat} {mem : Nat → Byte} {p : AddrReq} {n : Nat} {i : AxIn} (h : AxMem.Right c ⟨mem, none, [], some (p, n), none, kr, E⟩ i) (hf : rFire i = true) :
    BeatOf c (E kr) mem p n i ∧ (rLast c i = true ↔ n + 1 = (p.decode c.dataBytes).2.2.2) := by
  obtain ⟨h2, h1, h3, h4⟩ := h.2 hf p n rfl
  exact ⟨⟨h1, h2, h4⟩, h3⟩

/-- the beats of an answer up to the last one -/
theorem run_beats (c : AxCfg) (E : Nat → Nat → Nat) (kr : Nat) (mem : Nat → Byte) (p : AddrReq) (t : List (AxAll × AxIn)) : ∀ n, n < (p.decode c.dataBytes).2.2.2 →
    (∀ q ∈ t, QuietAt c q) → AxMem.Serves c ⟨mem, none, [], some (p, n), none, kr, E⟩ t → (∀ q ∈ t, rFire q.2 = true → rLast c q.2 = false) →
    AxMem.run c ⟨mem, none, [], some (p, n), none, kr, E⟩ t = ⟨mem, none, [], some (p, n + (beatsIn t).length), none, kr, E⟩ ∧ n + (beatsIn t).length < (p.decode c.dataBytes).2.2.2 ∧
    ∀ j i, (beatsIn t)[j]? = some i → BeatOf c (E kr) mem p (n + j) i := by
  induction t with
  | nil => intro n hn _ _ _; exact ⟨rfl, hn, fun j i h => by simp [beatsIn] at h⟩
  | cons q t ih =>
    intro n hn hq hs hl
    obtain ⟨q1, q2, q3⟩ := hq q (by simp)
    have hq' : ∀ q ∈ t, QuietAt c q := fun q hx => hq q (by simp [hx])
    have hl' : ∀ q ∈ t, rFire q.2 = true → rLast c q.2 = false := fun q hx => hl q (by simp [hx])
    have hrun : AxMem.run c ⟨mem, none, [], some (p, n), none, kr, E⟩ (q :: t) = AxMem.run c (AxMem.step c ⟨mem, none, [], some (p, n), none, kr, E⟩ q) t := rfl
    cases hf : rFire q.2 with
    | false =>
      have hst : AxMem.step c ⟨mem, none, [], some (p, n), none, kr, E⟩ q = ⟨mem, none, [], some (p, n), none, kr, E⟩ := by
        simp [AxMem.step, AxMem.commit, q1, q2, q3, hf]
      have hb : beatsIn (q :: t) = beatsIn t := by simp [beatsIn, hf]
      rw [hrun, hst, hb]
      have h2 := hs.2
      rw [hst] at h2
      exact ih n hn hq' h2 hl'
    | true =>
      obtain ⟨b1, b2⟩ := right_beat hs.1 hf
      have hne : ¬ n + 1 = (p.decode c.dataBytes).2.2.2 := by
        intro h
        have := b2.2 h
        rw [hl q (by simp) hf] at this
        cases this
      have hst : AxMem.step c ⟨mem, none, [], some (p, n), none, kr, E⟩ q = ⟨mem, none, [], some (p, n + 1), none, kr, E⟩ := by
        simp [AxMem.step, AxMem.commit, q1, q2, q3, hf, hne]
      have hb : beatsIn (q :: t) = q.2 :: beatsIn t := by simp [beatsIn, hf]
      rw [hrun, hst, hb]
      have h2 := hs.2
      rw [hst] at h2
      obtain ⟨i1, i2, i3⟩ := ih (n + 1) (by omega) hq' h2 hl'
      refine ⟨by rw [i1]; simp; omega, by simp; omega, ?_⟩
      intro j i hj
      cases j with
      | zero =>
        have : q.2 = i := by simpa using hj
        subst this
        exact b1
      | succ j =>
        have := i3 j i (by simpa using hj)
        rwa [show n + 1 + j = n + (j + 1) by omega] at this

/-! ### The state after a call -/

section
variable {I O α β : Type}

theorem err_of_bind {x : M I O α} {f : α → M I O β} {s : Sim I O} {e : PyErr} {s' : Sim I O} (h : ((x >>= f) s).2 = .err e s') :
    (x s).2 = .err e s' ∨ ∃ a s1, (x s).2 = .ok a s1 ∧ (f a s1).2 = .err e s' := by
  rw [bind_run] at h
  cases hx : x s with
  | mk t e =>
    cases e with
    | ok a s1 => rw [hx, andThen_ok] at h; exact .inr ⟨a, s1, rfl, h⟩
    | err e s1 => rw [hx, andThen_err] at h; cases h; exact .inl rfl
    | blocked s1 => rw [hx, andThen_blocked] at h; cases h

/-- `x` does not raise AXIProtocolError -/
def AxQuiet (x : M I O α) : Prop := ∀ s n s', (x s).2 ≠ .err (.axiProtocol n) s'

theorem AxQuiet.bind {x : M I O α} {f : α → M I O β} (hx : AxQuiet x) (hf : ∀ a, AxQuiet (f a)) : AxQuiet (x >>= f) := by
  intro s n s' h
  rcases err_of_bind h with h | ⟨a, s1, -, h⟩
  · exact hx s n s' h
  · exact hf a s1 n s' h

theorem AxQuiet.pure (a : α) : AxQuiet (pure a : M I O α) := fun s n s' h => by cases h
theorem AxQuiet.readOnly : AxQuiet (readOnly : M I O Unit) := fun s n s' h => by unfold Coro.readOnly at h; split at h <;> cases h
theorem AxQuiet.inp : AxQuiet (inp : M I O I) := fun s n s' h => by cases h
theorem AxQuiet.awaitEdge : AxQuiet (awaitEdge : M I O Unit) := fun s n s' h => by unfold Coro.awaitEdge at h; split at h <;> cases h
theorem AxQuiet.ofExcept (x : Except PyErr α) (h : ∀ n, x ≠ .error (.axiProtocol n)) : AxQuiet (ofExcept x : M I O α) := by
  intro s n s' e
  unfold Coro.ofExcept at e
  split at e
  · cases e
  · rename_i x'
    cases e
    exact h n rfl
theorem AxQuiet.ite {c : Prop} [Decidable c] {x y : M I O α} (hx : AxQuiet x) (hy : AxQuiet y) : AxQuiet (if c then x else y) := by
  split
  · exact hx
  · exact hy
theorem AxQuiet.loop (body : β → M I O (β ⊕ α)) (hb : ∀ b, AxQuiet (body b)) (b : β) : AxQuiet (loop body b) := by
  have : ∀ n b, AxQuiet (iter body n b) := by
    intro n
    induction n with
    | zero => intro b s n s' h; cases h
    | succ n ih =>
      intro b
      refine AxQuiet.bind (hb b) fun x => ?_
      cases x with
      | inl b' => exact ih b'
      | inr a => exact AxQuiet.pure _
  exact fun s => this _ b s

end

/-- a call has returned, or has raised AXIProtocolError -/
def Ended {I O α : Type} (e : End I O α) (s' : Sim I O) : Prop := (∃ a, e = .ok a s') ∨ ∃ n, e = .err (.axiProtocol n) s'

theorem ended_of_bind {I O α β : Type} {x : M I O α} {f : α → M I O β} {s : Sim I O} {s' : Sim I O} (hx : AxQuiet x) (h : Ended ((x >>= f) s).2 s') :
    ∃ a s1, (x s).2 = .ok a s1 ∧ Ended (f a s1).2 s' := by
  rcases h with ⟨b, h⟩ | ⟨n, h⟩
  · obtain ⟨a, s1, h1, h2⟩ := ok_of_bind h
    exact ⟨a, s1, h1, .inl ⟨b, h2⟩⟩
  · rcases err_of_bind h with h | ⟨a, s1, h1, h2⟩
    · exact absurd h (hx s n s')
    · exact ⟨a, s1, h1, .inr ⟨n, h2⟩⟩

theorem axiResp_quiet (v : LogicArray) (n : Nat) : axiResp v ≠ .error (.axiProtocol n) := by
  unfold axiResp
  intro h
  split at h
  · split at h <;> cases h
  · cases h

theorem bLoop_quiet {O : Type} : AxQuiet (bLoop (O := O)) := by
  refine AxQuiet.loop _ (fun _ => AxQuiet.bind AxQuiet.readOnly fun _ => AxQuiet.bind AxQuiet.inp fun i => AxQuiet.ite ?_ ?_) _
  · exact AxQuiet.bind (AxQuiet.ofExcept _ (axiResp_quiet _)) fun _ => AxQuiet.pure _
  · exact AxQuiet.bind AxQuiet.awaitEdge fun _ => AxQuiet.pure _

theorem bPhase_end {O : Type} (s s' : Sim AxIn O) (h : Ended ((bPhase : M AxIn O Unit) s).2 s') : s'.phase = .edge := by
  unfold bPhase at h
  obtain ⟨r, s1, -, h⟩ := ended_of_bind bLoop_quiet h
  obtain ⟨_, s2, h2, h⟩ := ended_of_bind AxQuiet.awaitEdge h
  have hp : s2.phase = .edge := by
    unfold awaitEdge at h2
    split at h2
    · cases h2
    · cases h2; rfl
  unfold Coro.when at h
  split at h
  · rcases h with ⟨_, h⟩ | ⟨_, h⟩ <;> cases h
    exact hp
  · rcases h with ⟨_, h⟩ | ⟨_, h⟩ <;> cases h
    exact hp

theorem axiWriteRun_end (c : AxCfg) (a : Nat) (data : List Nat) (size : Nat) (burst : AxiBurst) (be : List (Option Nat)) (al dl : Nat) (sync : Bool)
    (hf : AddrFits c a data.length size) (hsz : 0 < size) (beats : List (Nat × Nat)) (hb : axiWriteBeats c.dataBytes size a burst data be = .ok beats)
    (hne : beats ≠ []) (hl : ∀ x ∈ beats, x.1 < 2 ^ (8 * c.dataBytes) ∧ x.2 < 2 ^ c.dataBytes) (hd : dl = 0 ∨ beats.length = 1)
    (s : Sim AxIn (AddrOut × WOut)) (hs : WriteReady sync s) (s' : Sim AxIn (AddrOut × WOut))
    (h : Ended (axiWriteRun c a data size burst be al dl sync s).2 s') :
    s'.phase = .edge ∧ s'.out.1.valid = .zero ∧ s'.out.2.valid = .zero := by
  have hA := sendWriteAddress_offers c a data.length size al burst sync hf hsz ⟨s.phase, s.out.1, s.prev, s.cur, s.rest⟩ hs.1 hs.2.1
  have hB := sendBeats_first c dl sync beats hd hne hl ⟨s.phase, s.out.2, s.prev, s.cur, s.rest⟩ hs.1 hs.2.2
  rw [← sendWriteData_eq c a data burst size dl be sync beats hb] at hB
  have hB' := hB.burst (by simp; cases beats with | nil => exact absurd rfl hne | cons x r => simp [wReqs_length]) [] (by simp) (by simp)
    (by intro s' hs'; simp [wStream, hs'.2])
  have hcomb : ∀ e s1, (combine (sendWriteAddress c a data.length burst size al sync) (sendWriteData c a data burst size dl be sync) s).2 ≠ .err e s1 := by
    intro e s1 he
    cases hb : ((sendWriteAddress c a data.length burst size al sync ⟨s.phase, s.out.1, s.prev, s.cur, s.rest⟩).2.isOk &&
        (sendWriteData c a data burst size dl be sync ⟨s.phase, s.out.2, s.prev, s.cur, s.rest⟩).2.isOk) with
    | false =>
      obtain ⟨s2, h2⟩ := combine_blocked s hA.request.2.2 hB'.2.1 hb
      rw [h2] at he
      cases he
    | true =>
      simp only [Bool.and_eq_true] at hb
      cases h1 : (sendWriteAddress c a data.length burst size al sync ⟨s.phase, s.out.1, s.prev, s.cur, s.rest⟩).2 with
      | ok x1 u1 =>
        cases h2 : (sendWriteData c a data burst size dl be sync ⟨s.phase, s.out.2, s.prev, s.cur, s.rest⟩).2 with
        | ok x2 u2 => rw [combine_ok s u1 u2 h1 h2] at he; cases he
        | err _ _ => rw [h2] at hb; cases hb.2
        | blocked _ => rw [h2] at hb; cases hb.2
      | err _ _ => rw [h1] at hb; cases hb.1
      | blocked _ => rw [h1] at hb; cases hb.1
  rw [axiWriteRun_eq] at h
  obtain ⟨_, s1, h1, h2⟩ : ∃ x s1, (combine (sendWriteAddress c a data.length burst size al sync) (sendWriteData c a data burst size dl be sync) s).2 = .ok x s1 ∧
      Ended (bPhase s1).2 s' := by
    rcases h with ⟨b, h⟩ | ⟨n, h⟩
    · obtain ⟨a, s1, h1, h2⟩ := ok_of_bind h
      exact ⟨a, s1, h1, .inl ⟨b, h2⟩⟩
    · rcases err_of_bind h with h | ⟨a, s1, h1, h2⟩
      · exact absurd h (hcomb _ _)
      · exact ⟨a, s1, h1, .inr ⟨n, h2⟩⟩
  obtain ⟨u1, u2, e1, e2, e3⟩ := combine_ok_inv s s1 h1
  have p1 := hA.request.2.1 _ _ e1
  have p2 := hB'.2.2 _ e2
  have ho : s'.out = s1.out := by
    have := (bPhase_keeps s1.out s1 rfl).2
    rcases h2 with ⟨_, h2⟩ | ⟨_, h2⟩ <;> rw [h2] at this <;> exact this
  rw [ho, e3, joinSim_out]
  exact ⟨bPhase_end _ _ h2, p1.2, p2.2⟩

theorem rBody_quiet (c : AxCfg) (size : Nat) (burst : AxiBurst) (st : RState) : AxQuiet (rBody c size burst st) := by
  refine AxQuiet.bind AxQuiet.readOnly fun _ => AxQuiet.bind AxQuiet.inp fun i => AxQuiet.ite (AxQuiet.bind (AxQuiet.ofExcept _ ?_) fun _ =>
    AxQuiet.bind (AxQuiet.ofExcept _ (axiResp_quiet _)) fun _ => AxQuiet.ite (AxQuiet.pure _) (AxQuiet.bind AxQuiet.awaitEdge fun _ => AxQuiet.pure _))
    (AxQuiet.bind AxQuiet.awaitEdge fun _ => AxQuiet.pure _)
  intro n h
  unfold shiftAndMask binarySlice at h
  repeat' split at h
  all_goals cases h

theorem axiReadRun_end (c : AxCfg) (a len size : Nat) (burst : AxiBurst) (rr sync : Bool) (hf : AddrFits c a len size) (hsz : 0 < size)
    (s : Sim AxIn AddrOut) (hs : ReadReady sync s) (s' : Sim AxIn AddrOut) (h : Ended (axiReadRun c a len size burst rr sync s).2 s') :
    s'.phase = .edge ∧ s'.out.valid = .zero := by
  unfold axiReadRun at h
  have hA := (sendReadAddress_offers c a len size burst sync hf hsz s hs.1 hs.2).request
  obtain ⟨_, s1, h1, h⟩ : ∃ x s1, (sendReadAddress c a len burst size sync s).2 = .ok x s1 ∧ Ended ((do
      let st ← loop (rBody c size burst) ⟨[], [], a % c.dataBytes / size * size⟩
      awaitEdge
      ofExcept (axiFinish a len size burst rr st) : M AxIn AddrOut (List LogicArray ⊕ List (LogicArray × Nat))) s1).2 s' := by
    rcases h with ⟨b, h⟩ | ⟨n, h⟩
    · obtain ⟨a, s1, h1, h2⟩ := ok_of_bind h
      exact ⟨a, s1, h1, .inl ⟨b, h2⟩⟩
    · rcases err_of_bind h with h | ⟨a, s1, h1, h2⟩
      · exact absurd h (hA.2.2 _ _)
      · exact ⟨a, s1, h1, .inr ⟨n, h2⟩⟩
  obtain ⟨st, s2, h2, h⟩ := ended_of_bind (AxQuiet.loop _ (rBody_quiet c size burst) _) h
  obtain ⟨_, s3, h3, h⟩ := ended_of_bind AxQuiet.awaitEdge h
  have p1 := hA.2.1 _ _ h1
  have k2 : s2.out = s1.out := by
    have hk : Keeps (fun x => x = s1.out) (loop (rBody c size burst) (⟨[], [], a % c.dataBytes / size * size⟩ : RState)) := by
      refine Keeps.loop _ (fun st => ?_) _
      refine Keeps.bind (Keeps.readOnly _) (fun _ => Keeps.bind Keeps.inp (fun i => ?_))
      refine Keeps.ite (Keeps.bind (Keeps.ofExcept _) (fun _ => Keeps.bind (Keeps.ofExcept _) (fun _ => ?_)))
        (Keeps.bind Keeps.awaitEdge (fun _ => Keeps.pure _))
      exact Keeps.ite (Keeps.pure _) (Keeps.bind Keeps.awaitEdge (fun _ => Keeps.pure _))
    have := (hk s1 rfl).2
    rw [h2] at this
    exact this
  have k3 : s3.phase = .edge ∧ s3.out = s2.out := by
    unfold awaitEdge at h3
    split at h3
    · cases h3
    · cases h3; exact ⟨rfl, rfl⟩
  have k4 : s' = s3 := by
    unfold Coro.ofExcept at h
    split at h <;> rcases h with ⟨_, h⟩ | ⟨_, h⟩ <;> cases h <;> rfl
  rw [k4]
  exact ⟨k3.1, by rw [k3.2, k2]; exact p1.2⟩

/-! ### Values and beats -/

theorem storeAll_values (c : AxCfg) (sz : Nat) (burst : AxiBurst) (a len : Nat) (be : List (Option Nat)) (value : List Nat) : ∀ (beats : List (Nat × Nat)) (n : Nat),
    beats.length = value.length →
    (∀ i beat, beats[i]? = some beat → ∀ mem b, axiStore c.dataBytes (beatAddr sz burst a len (n + i)) beat mem b =
      storeValue sz (beatAddr sz burst a len (n + i)) (axiEnabled be (n + i)) (value.getD i 0) mem b) →
    ∀ mem, axiStoreAll c.dataBytes sz burst a len n beats mem = storeValues sz burst a len be n value mem := by
  induction value with
  | nil =>
    intro beats n hl _ mem
    have : beats = [] := List.eq_nil_of_length_eq_zero hl
    subst this
    rfl
  | cons v r ih =>
    intro beats n hl h mem
    cases beats with
    | nil => simp at hl
    | cons x beats =>
      have h0 : axiStore c.dataBytes (beatAddr sz burst a len n) x mem = storeValue sz (beatAddr sz burst a len n) (axiEnabled be n) v mem := by
        funext b
        have := h 0 x rfl mem b
        simpa using this
      show axiStoreAll c.dataBytes sz burst a len (n + 1) beats (axiStore c.dataBytes (beatAddr sz burst a len n) x mem) = _
      rw [h0]
      refine ih beats (n + 1) (by simpa using hl) ?_ _
      intro i beat hi mem b
      have := h (i + 1) beat (by simpa using hi) mem b
      rw [show n + (i + 1) = n + 1 + i by omega] at this
      simpa using this

theorem wrap_aligned (sz a len i : Nat) (h : a % sz = 0) : beatAddr sz .wrap a len i % sz = 0 := by
  unfold beatAddr
  simp only
  have h1 : sz ∣ a := Nat.dvd_of_mod_eq_zero h
  have h2 : sz ∣ a / (sz * len) * (sz * len) := Nat.dvd_trans (Nat.dvd_mul_right sz len) (Nat.dvd_mul_left _ _)
  have h3 : sz ∣ a - a / (sz * len) * (sz * len) + i * sz := Nat.dvd_add (Nat.dvd_sub h1 h2) (Nat.dvd_mul_left _ _)
  have h4 : sz ∣ (a - a / (sz * len) * (sz * len) + i * sz) % (sz * len) := (Nat.dvd_mod_iff (Nat.dvd_mul_right sz len)).2 h3
  exact Nat.mod_eq_zero_of_dvd (Nat.dvd_add h2 h4)

/-- the beats of a write do to a memory what the write should do -/
theorem beats_write (c : AxCfg) (sz m a : Nat) (hs : 0 < sz) (hm : 0 < m) (hW : c.dataBytes = sz * m) (burst : AxiBurst) (value : List Nat)
    (be : List (Option Nat)) (hbe : be ≠ []) (hwrap : WrapOk c sz burst a value.length) (beats : List (Nat × Nat))
    (hb : axiWriteBeats c.dataBytes sz a burst value be = .ok beats) (mem : Nat → Byte) :
    axiStoreAll c.dataBytes sz burst a value.length 0 beats mem = writeTo sz burst a value be mem := by
  rw [hW] at hb
  cases burst with
  | incr =>
    obtain ⟨b', e1, e2, e3⟩ := C56_incr_beats sz m a hs hm value be hbe
    rw [hb] at e1
    injection e1 with e1
    subst e1
    funext b
    rw [hW, e3 mem b]
    rfl
  | fixed =>
    obtain ⟨b', e1, e2, e3⟩ := C57_fixed_beats sz m a hs hm value be hbe
    rw [hb] at e1
    injection e1 with e1
    subst e1
    refine storeAll_values c sz .fixed a value.length be value beats 0 e2 ?_ mem
    intro i beat hi mem b
    rw [Nat.zero_add, hW]
    exact e3 i beat hi mem b
  | wrap =>
    obtain ⟨w1, w2⟩ := hwrap rfl
    rw [hW] at w2
    obtain ⟨b', e1, e2, e3⟩ := C58_wrap_write_partial sz m a hs hm value be hbe w1 (w2.imp_left (Nat.dvd_of_mul_dvd_mul_left hs))
    rw [hb] at e1
    injection e1 with e1
    subst e1
    refine storeAll_values c sz .wrap a value.length be value beats 0 e2 ?_ mem
    intro i beat hi mem b
    rw [Nat.zero_add, hW, e3 i beat hi mem b]
    unfold storeValue
    rw [wrap_aligned sz a value.length i w1, Nat.sub_zero]

/-! ### Calls -/

/-- on idle channels, outside the ReadOnly phase -/
def AxReady (s : Sim AxIn AxAll) : Prop := s.phase ≠ .ro ∧ s.out.1.1.valid = .zero ∧ s.out.1.2.valid = .zero ∧ s.out.2.valid = .zero

theorem respIs_unique {v : LogicArray} {n m : Nat} (h1 : respIs v n) (h2 : respIs v m) : n = m := by
  rw [← h1.2.1, ← h2.2.1]

/-- the two parts of a write: until its address and all its data are accepted, and waiting for the response -/
theorem axWrite_parts (c : AxCfg) (hc : Standard c) (a : Nat) (ha : a < 2 ^ c.addrW) (value : List Nat) (size : Option Int) (burst : AxiBurst)
    (be : List (Option Nat)) (hbe : be ≠ []) (al dl : Nat) (hd : dl = 0 ∨ value.length = 1) (sync : Bool) (sz : Nat) (hl : Legal c a value.length size burst sz)
    (s : Sim AxIn (AddrOut × WOut)) (hs : WriteReady sync s) (hg : ∀ i ∈ s.cur :: s.rest, GoodResp i) :
    let r := axiWrite c a value size burst be al dl sync s
    ∃ beats tc tb, axiWriteBeats c.dataBytes sz a burst value be = .ok beats ∧ beats.length = value.length ∧
      (∀ x ∈ beats, x.1 < 2 ^ (8 * c.dataBytes) ∧ x.2 < 2 ^ c.dataBytes) ∧ r.1 = tc ++ tb ∧
      ((tb = [] ∧ result r = none) ∨
       ((awStream c).taken (awTrace tc) = [addrReq c a value.length sz burst] ∧ (wStream c).taken (wTrace tc) = wReqs c beats ∧
        (∃ q, tc.getLast? = some q ∧ ((awStream c).xfer (q.1.1, q.2) = true ∨ (wStream c).xfer (q.1.2, q.2) = true)) ∧
        (∀ q ∈ tb, (awStream c).valid q.1.1 = false ∧ (wStream c).valid q.1.2 = false) ∧ WriteResponse tb (result r))) ∧
      (∀ s', Ended r.2 s' → s'.phase = .edge ∧ s'.out.1.valid = .zero ∧ s'.out.2.valid = .zero) := by
  intro r
  obtain ⟨h1, h2, h3, k, m, hk, hm, hW⟩ := Legal.facts hl hc ha
  change 0 < value.length at h3
  obtain ⟨beats, b1, b2, b3⟩ := axiWriteBeats_ok sz m a h2 hm burst value be hbe
  rw [← hW] at b1 b3
  have hne : beats ≠ [] := by
    intro h
    rw [h] at b2
    simp at b2
    omega
  have hspec := axiWriteRun_spec c a value sz burst be al dl sync h1 h2 beats b1 hne b3 (by rw [b2]; exact hd) s hs.1 hs.2.1 hs.2.2 hg
  have hend := axiWriteRun_end c a value sz burst be al dl sync h1 h2 beats b1 hne b3 (by rw [b2]; exact hd) s hs
  simp only at hspec
  have hr : r = axiWriteRun c a value sz burst be al dl sync s := by
    show axiWrite c a value size burst be al dl sync s = _
    rw [axiWrite_legal c hc a value size burst be al dl sync sz hl]
  rw [← hr] at hspec hend
  obtain ⟨tc, tb, aw, w, e1, e2, e3, e4, e5⟩ := hspec
  refine ⟨beats, tc, tb, b1, b2, b3, e1, ?_, hend⟩
  by_cases hboth : (aw && w) = true
  · right
    obtain ⟨q1, q2, q3⟩ := e5 hboth
    simp only [Bool.and_eq_true] at hboth
    obtain ⟨rfl, rfl⟩ := hboth
    have hA := Stream.Once.taken_eq e2
    have hB := Stream.Burst.taken_eq e3
    rw [e1] at hA hB
    unfold awTrace at hA
    unfold wTrace at hB
    rw [List.map_append, taken_append, taken_none (awStream c) (tb.map _) (by
      intro x hx
      obtain ⟨y, hy, rfl⟩ := List.mem_map.1 hx
      simp [Stream.xfer, (q1 y hy).1]), List.append_nil] at hA
    rw [List.map_append, taken_append, taken_none (wStream c) (tb.map _) (by
      intro x hx
      obtain ⟨y, hy, rfl⟩ := List.mem_map.1 hx
      simp [Stream.xfer, (q1 y hy).2]), List.append_nil] at hB
    exact ⟨hA, hB, q3, q1, q2⟩
  · exact .inl (e4 (by simpa using hboth))

/-- the end of a call with a given outcome -/
def endWith {I O α : Type} (x : Except PyErr α) (s : Sim I O) : End I O α :=
  match x with
  | .ok a => .ok a s
  | .error e => .err e s

theorem ended_of_result {I O α : Type} {r : Res I O α} {x : Except PyErr α} (h : result r = some x) (hx : ∀ e, x = .error e → ∃ n, e = .axiProtocol n) :
    ∃ s', Ended r.2 s' ∧ r.2 = endWith x s' := by
  unfold result at h
  cases hr : r.2 with
  | ok a s' =>
    rw [hr] at h
    injection h with h
    subst h
    exact ⟨s', .inl ⟨a, rfl⟩, rfl⟩
  | err e s' =>
    rw [hr] at h
    injection h with h
    subst h
    obtain ⟨n, hn⟩ := hx e rfl
    exact ⟨s', .inr ⟨n, by rw [hn]⟩, rfl⟩
  | blocked s' => rw [hr] at h; cases h

/-- a write on a bus with a memory -/
theorem axWrite_core (c : AxCfg) (hc : Standard c) (a : Nat) (ha : a < 2 ^ c.addrW) (value : List Nat) (size : Option Int) (burst : AxiBurst)
    (be : List (Option Nat)) (hbe : be ≠ []) (al dl : Nat) (hd : dl = 0 ∨ value.length = 1) (sync : Bool) (sz : Nat) (hl : Legal c a value.length size burst sz)
    (hwrap : WrapOk c sz burst a value.length) (hlite : c.full = false → sz = c.dataBytes ∧ burst = .incr ∧ value.length = 1)
    (s : Sim AxIn (AddrOut × WOut)) (hs : WriteReady sync s) (hg : ∀ i ∈ s.cur :: s.rest, GoodResp i) (o : AddrOut) (ho : o.valid = .zero)
    (E : Nat → Nat → Nat) (kr : Nat) (mem : Nat → Byte) :
    let r := axiWrite c a value size burst be al dl sync s
    let t := r.1.map (fun q => ((q.1, o), q.2))
    AxMem.Serves c (AxMem.idle E kr mem) t →
    (∃ s', r.2 = .blocked s') ∨
    (∃ s', r.2 = endWith (if E kr 0 = 0 then .ok () else .error (.axiProtocol (E kr 0))) s' ∧ s'.phase = .edge ∧ s'.out.1.valid = .zero ∧ s'.out.2.valid = .zero ∧
      AxMem.run c (AxMem.idle E kr mem) t = AxMem.idle E (kr + 1) (if E kr 0 = 0 then writeTo sz burst a value be mem else mem)) := by
  intro r t hserve
  obtain ⟨h1, h2, h3, k, m, hk, hm, hW⟩ := Legal.facts hl hc ha
  obtain ⟨beats, tc, tb, b1, b2, b3, e1, e2, e3⟩ := axWrite_parts c hc a ha value size burst be hbe al dl hd sync sz hl s hs hg
  have hblocked : result r = none → ∃ s', r.2 = .blocked s' := by
    intro hres
    unfold result at hres
    cases hr : r.2 with
    | ok _ _ => rw [hr] at hres; cases hres
    | err _ _ => rw [hr] at hres; cases hres
    | blocked s' => exact ⟨s', rfl⟩
  rcases e2 with ⟨_, e2⟩ | ⟨hA, hB, ⟨ql, hq1, hq2⟩, hquiet, hresp⟩
  · exact .inl (hblocked e2)
  rcases hresp with ⟨e2, _⟩ | ⟨t', q, n, g1, g2, g3, g4, g5⟩
  · exact .inl (hblocked e2)
  right
  let F : (AddrOut × WOut) × AxIn → AxAll × AxIn := fun q => ((q.1, o), q.2)
  have ht : t = tc.map F ++ (t'.map F ++ [F q]) := by
    show r.1.map F = _
    rw [show r.1 = tc ++ tb from e1, g1]
    simp
  rw [ht] at hserve ⊢
  have hq' : ∀ x ∈ tb, QuietAt c (F x) := by
    intro x hx
    obtain ⟨v1, v2⟩ := hquiet x hx
    exact ⟨by simp [F, Stream.xfer, v1], by simp [F, Stream.xfer, v2], by simp [F, Stream.xfer, arStream, ho]⟩
  have hdec := decode_addrReq c a value.length sz k burst h1 hk h3 hlite
  obtain ⟨b', hrun, hlast⟩ := run_write c E kr (addrReq c a value.length sz burst) (wReqs c beats) mem (by rw [hdec, wReqs_length, b2]) (tc.map F) none [] none (by
      rw [Option.toList_none, List.nil_append, ← hA]
      simp [awOf, F, awTrace, List.map_map, Function.comp_def]) (by
      rw [List.nil_append, ← hB]
      simp [wOf, F, wTrace, List.map_map, Function.comp_def]) (.inl rfl) (by
      intro q hq
      obtain ⟨x, _, rfl⟩ := List.mem_map.1 hq
      simp [F, Stream.xfer, arStream, ho])
  have hb' : b' = some (E kr 0) := hlast (F ql) (by rw [List.getLast?_map, hq1]; rfl) hq2
  subst hb'
  have hmem : burstMem c (addrReq c a value.length sz burst) (wReqs c beats) mem = writeTo sz burst a value be mem := by
    unfold burstMem
    rw [hdec, wReqs_decode c beats b3]
    exact beats_write c sz m a h2 hm hW burst value be hbe hwrap beats b1 mem
  rw [hmem] at hrun
  obtain ⟨b2', hrun2, hkeep, _⟩ := run_rest c E (kr + 1) (if E kr 0 = 0 then writeTo sz burst a value be mem else mem) (t'.map F) (some (E kr 0)) (by
    intro x hx
    obtain ⟨y, hy, rfl⟩ := List.mem_map.1 hx
    exact hq' y (by rw [g1]; simp [hy]))
  have hb2 := hkeep (by
    intro x hx
    obtain ⟨y, hy, rfl⟩ := List.mem_map.1 hx
    exact g2 y hy)
  subst hb2
  rw [serves_append, show AxMem.run c (AxMem.idle E kr mem) (tc.map F) = _ from hrun, serves_append, hrun2] at hserve
  have hn : n = E kr 0 := respIs_unique g4 (hserve.2.2.1.1 g3 _ rfl)
  subst hn
  obtain ⟨s', he1, he2⟩ := ended_of_result (r := r) g5 (by
    intro e he
    split at he
    · cases he
    · injection he with he; exact ⟨_, he.symm⟩)
  obtain ⟨p1, p2, p3⟩ := e3 s' he1
  refine ⟨s', he2, p1, p2, p3, ?_⟩
  · rw [axRun_append, show AxMem.run c (AxMem.idle E kr mem) (tc.map F) = _ from hrun, axRun_append, hrun2]
    show AxMem.step c _ (F q) = _
    rw [step_rest c E (kr + 1) _ _ (F q) (hq' q (by rw [g1]; simp))]
    have : bFire (F q).2 = true := g3
    rw [this]
    rfl

/-- a read on a bus with a memory -/
theorem axRead_core (c : AxCfg) (hc : Standard c) (a : Nat) (ha : a < 2 ^ c.addrW) (length : Int) (size : Option Int) (burst : AxiBurst)
    (sync : Bool) (sz : Nat) (hl : Legal c a length size burst sz)
    (hwrap : WrapOk c sz burst a length.toNat) (hlite : c.full = false → sz = c.dataBytes ∧ burst = .incr ∧ length.toNat = 1)
    (s : Sim AxIn AddrOut) (hs : ReadReady sync s) (hg : ∀ i ∈ s.cur :: s.rest, GoodBeat c.dataBytes i) (o : AddrOut × WOut) (ho : o.1.valid = .zero ∧ o.2.valid = .zero)
    (E : Nat → Nat → Nat) (kr : Nat) (mem : Nat → Byte) :
    let r := axiRead c a length size burst false sync s
    let t := r.1.map (fun q => ((o, q.1), q.2))
    AxMem.Serves c (AxMem.idle E kr mem) t →
    (∃ s', r.2 = .blocked s') ∨
    (∃ s', r.2 = endWith (match ((List.range length.toNat).map (E kr)).find? (· ≠ 0) with
        | some n => .error (.axiProtocol n)
        | none => .ok (.inl (readFrom sz burst a length.toNat mem))) s' ∧ s'.phase = .edge ∧ s'.out.valid = .zero ∧
      AxMem.run c (AxMem.idle E kr mem) t = AxMem.idle E (kr + 1) mem) := by
  intro r t hserve
  obtain ⟨h1, h2, h3, k, m, hk, hm, hW⟩ := Legal.facts hl hc ha
  have hr : r = axiReadRun c a length.toNat sz burst false sync s := by
    show axiRead c a length size burst false sync s = _
    rw [axiRead_legal c hc a length size burst false sync sz hl]
  have hspec := axiReadRun_spec c a length.toNat sz m burst false sync h1 h2 hm hW s hs.1 hs.2 hg
  simp only at hspec
  rw [← hr] at hspec
  obtain ⟨t1, t2, ar, e1, e2, e3, e4, e5⟩ := hspec
  have hdec := decode_addrReq c a length.toNat sz k burst h1 hk h3 hlite
  have hblocked : result r = none → ∃ s', r.2 = .blocked s' := by
    intro hres
    unfold result at hres
    cases hr : r.2 with
    | ok _ _ => rw [hr] at hres; cases hres
    | err _ _ => rw [hr] at hres; cases hres
    | blocked s' => exact ⟨s', rfl⟩
  rcases e5 with ⟨e5, _⟩ | ⟨har, hone, -⟩
  · exact .inl (hblocked e5)
  subst har
  by_cases hnone : result r = none
  · exact .inl (hblocked hnone)
  right
  -- the trace: address phase, then the beats
  obtain ⟨pre, q, g1, g2, g3, g4⟩ := Stream.Request.xfers e2
  obtain ⟨t', ql, k1, k2, k3, k4⟩ := hone
  have hquiet : ∀ x : AddrOut × AxIn, (arStream c).xfer x = false → QuietAt c ((o, x.1), x.2) := by
    intro x hx
    exact ⟨by simp [Stream.xfer, awStream, ho.1], by simp [Stream.xfer, wStream, ho.2], hx⟩
  have hxf : ∀ x : AddrOut × AxIn, (arStream c).valid x.1 = false → (arStream c).xfer x = false := by
    intro x hx; simp [Stream.xfer, hx]
  let F : AddrOut × AxIn → AxAll × AxIn := fun q => ((o, q.1), q.2)
  have ht : t = pre.map F ++ F q :: (t'.map F ++ [F ql]) := by
    show r.1.map F = _
    rw [e1, g1, k1]
    simp
  rw [ht] at hserve ⊢
  have hpre : ∀ x ∈ pre.map F, QuietAt c x := by
    intro x hx
    obtain ⟨y, hy, rfl⟩ := List.mem_map.1 hx
    exact hquiet y (g2 y hy)
  rw [serves_append, run_idle c E kr mem _ hpre] at hserve
  obtain ⟨-, hq, hserve⟩ := hserve
  have hstep : (AxMem.idle E kr mem).step c (F q) = ⟨mem, none, [], some (addrReq c a length.toNat sz burst, 0), none, kr, E⟩ := by
    have x1 : (awStream c).xfer (o.1, q.2) = false := by simp [Stream.xfer, awStream, ho.1]
    have x2 : (wStream c).xfer (o.2, q.2) = false := by simp [Stream.xfer, wStream, ho.2]
    have x3 : (arStream c).xfer (q.1, q.2) = true := g3
    simp [AxMem.step, AxMem.idle, AxMem.commit, F, x1, x2, x3, g4]
  rw [hstep, serves_append] at hserve
  obtain ⟨hs1, hs2⟩ := hserve
  have hlen0 : ((addrReq c a length.toNat sz burst).decode c.dataBytes).2.2.2 = length.toNat := by rw [hdec]
  have hq2 : ∀ x ∈ t'.map F, QuietAt c x := by
    intro x hx
    obtain ⟨y, hy, rfl⟩ := List.mem_map.1 hx
    exact hquiet y (hxf y (e3 y (by rw [k1]; simp [hy])))
  obtain ⟨b1, b2, b3⟩ := run_beats c E kr mem (addrReq c a length.toNat sz burst) (t'.map F) 0 (by rw [hlen0]; exact h3) hq2 hs1 (by
    intro x hx
    obtain ⟨y, hy, rfl⟩ := List.mem_map.1 hx
    exact k4 y hy)
  rw [b1] at hs2
  rw [Nat.zero_add] at b2 hs2
  obtain ⟨c1, c2⟩ := right_beat hs2.1 k2
  have hn := c2.1 k3
  have hbt : beatsIn (t'.map F) = rBeats t' := by simp [beatsIn, rBeats, F, List.map_map, Function.comp_def]
  rw [hbt] at hn b1 b2 b3 hs2 c1
  rw [hlen0] at hn
  have hbeats : rBeats ((arStream c).after r.1) = rBeats t' ++ [ql.2] := by
    rw [e1, after_request e2, k1]
    have : rFire ql.2 = true := k2
    simp [rBeats, List.filter_append, this]
  -- the answer
  have hBeat : ∀ j i, (rBeats t' ++ [ql.2])[j]? = some i → BeatOf c (E kr) mem (addrReq c a length.toNat sz burst) j i := by
    intro j i hj
    by_cases hj' : j < (rBeats t').length
    · rw [List.getElem?_append_left hj'] at hj
      have := b3 j i hj
      rwa [Nat.zero_add] at this
    · rw [List.getElem?_append_right (by omega)] at hj
      have hj0 : j - (rBeats t').length = 0 := by
        rcases Nat.eq_zero_or_pos (j - (rBeats t').length) with h | h
        · exact h
        · rw [List.getElem?_eq_none (by simp; omega)] at hj; cases hj
      rw [hj0] at hj
      have : ql.2 = i := by simpa using hj
      rw [← this, show j = (rBeats t').length by omega]
      exact c1
  have hresps : (rBeats ((arStream c).after r.1)).map (fun i => bitsToNat i.rresp) = (List.range length.toNat).map (E kr) := by
    rw [hbeats]
    refine List.ext_getElem? (fun j => ?_)
    rw [List.getElem?_map, List.getElem?_map]
    by_cases hj : j < length.toNat
    · have hj' : j < (rBeats t' ++ [ql.2]).length := by simp; omega
      rw [List.getElem?_eq_getElem hj', List.getElem?_range hj]
      have := (hBeat j _ (List.getElem?_eq_getElem hj')).1.2.1
      simp only [Option.map_some]
      rw [this]
    · rw [List.getElem?_eq_none (by simp; omega), List.getElem?_eq_none (by simp; omega)]
      rfl
  have hres : result r = some (match ((List.range length.toNat).map (E kr)).find? (· ≠ 0) with
      | some n => .error (.axiProtocol n)
      | none => .ok (.inl (readFrom sz burst a length.toNat mem))) := by
    cases hfind : ((List.range length.toNat).map (E kr)).find? (· ≠ 0) with
    | some n =>
      obtain ⟨words, _, hw⟩ := C62_read c hc a ha length size burst false sync sz hl s hs hg hnone (by rw [hbeats]; simp; omega)
      rw [show result r = _ from hw]
      show some (readOutcome false words ((rBeats ((arStream c).after r.1)).map (fun i => bitsToNat i.rresp))) = _
      rw [hresps]
      unfold readOutcome
      rw [if_neg (by simp), hfind]
    | none =>
      have hzero : ∀ n, n < length.toNat → E kr n = 0 := by
        intro n hn
        have := List.find?_eq_none.1 hfind (E kr n) (List.mem_map.2 ⟨n, by simpa using hn, rfl⟩)
        simpa using this
      have hans : AxiAnswers c.dataBytes sz burst a length.toNat (fun _ => asBits mem) ((rBeats ((arStream c).after r.1)).map (·.rdata)) := by
        rw [hbeats]
        refine ⟨by simp; omega, ?_⟩
        intro n v hv
        rw [List.getElem?_map, Option.map_eq_some_iff] at hv
        obtain ⟨i, hi, rfl⟩ := hv
        obtain ⟨_, z2, z3⟩ := hBeat n i hi
        rw [hdec] at z3
        refine ⟨z2, z3 (hzero n ?_)⟩
        have := (List.getElem?_eq_some_iff.1 hi).1
        simp at this
        omega
      have hfin : ∀ words, result r = some (readOutcome false words ((rBeats ((arStream c).after r.1)).map (fun i => bitsToNat i.rresp))) → result r = some (.ok (.inl words)) := by
        intro words h
        rw [h, hresps]
        unfold readOutcome
        rw [if_neg (by simp), hfind]
      cases burst with
      | incr => exact hfin _ (C59_incr c hc a ha length size false sync sz hl s hs hg (asBits mem) hans hnone)
      | fixed => exact hfin _ (C59_fixed c hc a ha length size false sync sz hl s hs hg (fun _ => asBits mem) hans hnone)
      | wrap =>
        obtain ⟨w1, w2⟩ := hwrap rfl
        rw [hfin _ (C58_read_partial c hc a ha length size false sync sz hl w1 w2 s hs hg (asBits mem) hans hnone)]
        unfold readFrom
        simp only [wrap_aligned sz a length.toNat _ w1, Nat.sub_zero]
  obtain ⟨s', he1, he2⟩ := ended_of_result (r := r) hres (by
    intro e he
    split at he
    · injection he with he; exact ⟨_, he.symm⟩
    · cases he)
  have hend := axiReadRun_end c a length.toNat sz burst false sync h1 h2 s hs s' (by rw [← hr]; exact he1)
  refine ⟨s', he2, hend.1, hend.2, ?_⟩
  rw [axRun_append, run_idle c E kr mem _ hpre]
  show AxMem.run c ((AxMem.idle E kr mem).step c (F q)) (t'.map F ++ [F ql]) = _
  rw [hstep, axRun_append, b1, Nat.zero_add]
  show AxMem.step c _ (F ql) = _
  obtain ⟨x1, x2, x3⟩ := hquiet ql (hxf ql (e3 ql (by rw [k1]; simp)))
  have hf : rFire (F ql).2 = true := k2
  have hl' : (rBeats t').length + 1 = ((addrReq c a length.toNat sz burst).decode c.dataBytes).2.2.2 := by rw [hlen0]; exact hn
  have x1' : (awStream c).xfer ((F ql).1.1.1, (F ql).2) = false := x1
  have x2' : (wStream c).xfer ((F ql).1.1.2, (F ql).2) = false := x2
  have x3' : (arStream c).xfer ((F ql).1.2, (F ql).2) = false := x3
  simp [AxMem.step, AxMem.idle, AxMem.commit, x1', x2', x3', hf, hl']

theorem Good.end_inputs {I O α : Type} {x : M I O α} (h : Good x) {s s' : Sim I O} {a : Except PyErr α} (e : (x s).2 = endWith a s') :
    ∀ i ∈ s'.cur :: s'.rest, i ∈ s.cur :: s.rest := by
  intro i hi
  rw [(h s).1, e]
  cases a <;> exact List.mem_append_right _ hi

/-- what one step of the test does -/
def AxStepOk (c : AxCfg) (op : AxOp) (s : Sim AxIn AxAll) (E : Nat → Nat → Nat) (kr : Nat) (mem : Nat → Byte) (r : Res AxIn AxAll (List LogicArray)) : Prop :=
  (∃ s', r.2 = .blocked s') ∨
  (∃ s', r.2 = endWith (axOutcome c (E kr) op mem) s' ∧ AxReady s' ∧
    AxMem.run c (AxMem.idle E kr mem) r.1 = AxMem.idle E (kr + axRequests op) (axNext c (E kr) op mem) ∧
    ∀ i ∈ s'.cur :: s'.rest, i ∈ s.cur :: s.rest)

theorem bytesPerBeat_legal {c : AxCfg} {a : Nat} {len : Int} {size : Option Int} {burst : AxiBurst} {sz : Nat} (h : Legal c a len size burst sz) :
    bytesPerBeat c size = sz := by
  have := h.1
  unfold BeatSize at this
  unfold bytesPerBeat
  cases size with
  | none => exact this.symm
  | some s => simp [this.2]

/-- what `write` is expected to do -/
theorem axOutcome_single (c : AxCfg) (code : Nat → Nat) (op : AxOp) (mem : Nat → Byte) (h : axCodes code op = [code 0]) :
    axOutcome c code op mem = (if code 0 = 0 then .ok (axReturns c op mem) else .error (.axiProtocol (code 0))) ∧
    axNext c code op mem = (if code 0 = 0 then axAfter c op mem else mem) := by
  unfold axOutcome axNext
  rw [h]
  by_cases h0 : code 0 = 0
  · simp [h0]
  · simp [h0]

theorem axStep_write (c : AxCfg) (hc : Standard c) (op : AxOp) (a : Nat) (ha : a < 2 ^ c.addrW) (value : List Nat) (size : Option Int) (burst : AxiBurst)
    (be : List (Option Nat)) (hbe : be ≠ []) (al dl : Nat) (hd : dl = 0 ∨ value.length = 1) (sync : Bool) (sz : Nat) (hl : Legal c a value.length size burst sz)
    (hwrap : WrapOk c sz burst a value.length) (hlite : c.full = false → sz = c.dataBytes ∧ burst = .incr ∧ value.length = 1)
    (s : Sim AxIn AxAll) (hs : AxReady s) (hg : ∀ i ∈ s.cur :: s.rest, GoodResp i) (E : Nat → Nat → Nat) (kr : Nat) (mem : Nat → Byte)
    (hop : axReturns c op mem = [] ∧ axAfter c op mem = writeTo sz burst a value be mem ∧ axCodes (E kr) op = [E kr 0] ∧ axRequests op = 1)
    (r : Res AxIn AxAll (List LogicArray)) (x : Res AxIn (AddrOut × WOut) Unit)
    (hx : axiWrite c a value size burst be al dl sync ⟨s.phase, s.out.1, s.prev, s.cur, s.rest⟩ = x)
    (hr : r.1 = x.1.map (fun q => ((q.1, s.out.2), q.2)) ∧
      (∀ s', x.2 = .blocked s' → ∃ s'', r.2 = .blocked s'') ∧
      (∀ y s', x.2 = endWith y s' → r.2 = endWith (y.map fun _ => []) ⟨s'.phase, (s'.out, s.out.2), s'.prev, s'.cur, s'.rest⟩))
    (hserve : AxMem.Serves c (AxMem.idle E kr mem) r.1) : AxStepOk c op s E kr mem r := by
  obtain ⟨r1, r2, r3⟩ := hr
  have hcore := axWrite_core c hc a ha value size burst be hbe al dl hd sync sz hl hwrap hlite ⟨s.phase, s.out.1, s.prev, s.cur, s.rest⟩
    ⟨.inr hs.1, hs.2.1, hs.2.2.1⟩ hg s.out.2 hs.2.2.2 E kr mem
  simp only [hx] at hcore
  rw [← r1] at hcore
  obtain ⟨o1, o2⟩ := axOutcome_single c (E kr) op mem hop.2.2.1
  rcases hcore hserve with ⟨s', h⟩ | ⟨s', h1, h2, h3, h4, h5⟩
  · exact .inl (r2 s' h)
  · refine .inr ⟨⟨s'.phase, (s'.out, s.out.2), s'.prev, s'.cur, s'.rest⟩, ?_, ⟨by show s'.phase ≠ _; rw [h2]; decide, h3, h4, hs.2.2.2⟩, ?_, ?_⟩
    · rw [r3 _ s' h1, o1, hop.1]
      split <;> rfl
    · rw [o2, hop.2.1, hop.2.2.2]
      exact h5
    · have hgood : Good (axiWrite c a value size burst be al dl sync) := by
        rw [axiWrite_legal c hc a value size burst be al dl sync sz hl]
        exact axiWriteRun_good c a value sz burst be al dl sync
      exact Good.end_inputs hgood (s := ⟨s.phase, s.out.1, s.prev, s.cur, s.rest⟩) (s' := s') (by rw [hx]; exact h1)

theorem axStep_read (c : AxCfg) (hc : Standard c) (op : AxOp) (a : Nat) (ha : a < 2 ^ c.addrW) (length : Int) (size : Option Int) (burst : AxiBurst)
    (sync : Bool) (sz : Nat) (hl : Legal c a length size burst sz)
    (hwrap : WrapOk c sz burst a length.toNat) (hlite : c.full = false → sz = c.dataBytes ∧ burst = .incr ∧ length.toNat = 1)
    (s : Sim AxIn AxAll) (hs : AxReady s) (hg : ∀ i ∈ s.cur :: s.rest, GoodBeat c.dataBytes i) (E : Nat → Nat → Nat) (kr : Nat) (mem : Nat → Byte)
    (hop : axReturns c op mem = readFrom sz burst a length.toNat mem ∧ axAfter c op mem = mem ∧ axCodes (E kr) op = (List.range length.toNat).map (E kr) ∧ axRequests op = 1)
    (r : Res AxIn AxAll (List LogicArray)) (x : Res AxIn AddrOut (List LogicArray ⊕ List (LogicArray × Nat)))
    (hx : axiRead c a length size burst false sync ⟨s.phase, s.out.2, s.prev, s.cur, s.rest⟩ = x)
    (hr : r.1 = x.1.map (fun q => ((s.out.1, q.1), q.2)) ∧
      (∀ s', x.2 = .blocked s' → ∃ s'', r.2 = .blocked s'') ∧
      (∀ y s', x.2 = endWith (Except.map Sum.inl y) s' → (∀ w, y = .ok w → w = readFrom sz burst a length.toNat mem) →
        r.2 = endWith y ⟨s'.phase, (s.out.1, s'.out), s'.prev, s'.cur, s'.rest⟩))
    (hserve : AxMem.Serves c (AxMem.idle E kr mem) r.1) : AxStepOk c op s E kr mem r := by
  obtain ⟨r1, r2, r3⟩ := hr
  have hcore := axRead_core c hc a ha length size burst sync sz hl hwrap hlite ⟨s.phase, s.out.2, s.prev, s.cur, s.rest⟩
    ⟨.inr hs.1, hs.2.2.2⟩ hg s.out.1 ⟨hs.2.1, hs.2.2.1⟩ E kr mem
  simp only [hx] at hcore
  rw [← r1] at hcore
  rcases hcore hserve with ⟨s', h⟩ | ⟨s', h1, h2, h3, h5⟩
  · exact .inl (r2 s' h)
  · refine .inr ⟨⟨s'.phase, (s.out.1, s'.out), s'.prev, s'.cur, s'.rest⟩, ?_, ⟨by show s'.phase ≠ _; rw [h2]; decide, hs.2.1, hs.2.2.1, h3⟩, ?_, ?_⟩
    · refine r3 _ s' ?_ ?_
      · rw [h1]
        unfold axOutcome
        rw [hop.2.2.1, hop.1]
        generalize ((List.range length.toNat).map (E kr)).find? (· ≠ 0) = f
        cases f <;> rfl
      · intro w hw
        unfold axOutcome at hw
        rw [hop.2.2.1, hop.1] at hw
        split at hw
        · cases hw
        · injection hw with hw; exact hw.symm
    · have : axNext c (E kr) op mem = mem := by
        unfold axNext
        rw [hop.2.1]
        split <;> rfl
      rw [this, hop.2.2.2]
      exact h5
    · have hgood : Good (axiRead c a length size burst false sync) := by
        rw [axiRead_legal c hc a length size burst false sync sz hl]
        exact axiReadRun_good c a length.toNat sz burst false sync
      exact Good.end_inputs hgood (s := ⟨s.phase, s.out.2, s.prev, s.cur, s.rest⟩) (s' := s') (by rw [hx]; exact h1)

theorem axStep_ok (c : AxCfg) (hc : Standard c) (op : AxOp) (hop : AxOpOk c op) (s : Sim AxIn AxAll) (hs : AxReady s)
    (hg : ∀ i ∈ s.cur :: s.rest, GoodBeat c.dataBytes i ∧ GoodResp i) (E : Nat → Nat → Nat) (kr : Nat) (mem : Nat → Byte)
    (hserve : AxMem.Serves c (AxMem.idle E kr mem) (axStep c op s).1) : AxStepOk c op s E kr mem (axStep c op s) := by
  cases op with
  | write a v size burst be al dl sync =>
    obtain ⟨o1, o2, o3, o4, o5, o6⟩ := hop
    refine axStep_write c hc _ a o2 v size burst be o3 al dl o4 sync _ o5 o6 (by rw [o1]; intro h; cases h) s hs (fun i hi => (hg i hi).2) E kr mem ⟨rfl, rfl, rfl, rfl⟩ _ _ rfl ?_ hserve
    show _ ∧ _
    have e : axStep c (.write a v size burst be al dl sync) s = Res.andThen (onWrite (axiWrite c a v size burst be al dl sync) s) (fun _ => pure []) := rfl
    rw [e]
    unfold onWrite
    simp only
    generalize axiWrite c a v size burst be al dl sync ⟨s.phase, s.out.1, s.prev, s.cur, s.rest⟩ = x
    obtain ⟨t, e⟩ := x
    cases e with
    | ok u s' => exact ⟨List.append_nil _, fun s' h => (by cases h), fun y s' h => (by cases y <;> cases h; rfl)⟩
    | err e s' => exact ⟨rfl, fun s' h => (by cases h), fun y s' h => (by cases y <;> cases h; rfl)⟩
    | blocked s' => exact ⟨rfl, fun s' h => ⟨_, rfl⟩, fun y s' h => (by cases y <;> cases h)⟩
  | liteWrite a v be al dl sync =>
    obtain ⟨o1, o2⟩ := hop
    have hl : Legal c a ([v] : List Nat).length none .incr c.dataBytes := legal_single c hc a
    refine axStep_write c hc _ a o2 [v] none .incr [be] (by simp) al dl (.inr rfl) sync _ hl (fun h => by cases h) (fun _ => ⟨rfl, rfl, rfl⟩) s hs (fun i hi => (hg i hi).2) E kr mem
      ⟨rfl, rfl, rfl, rfl⟩ _ _ rfl ?_ hserve
    have e : axStep c (.liteWrite a v be al dl sync) s = Res.andThen (onWrite (liteWrite c a (.inl v) be al dl sync) s) (fun _ => pure []) := rfl
    rw [e]
    unfold onWrite
    simp only
    have e2 : ∀ u, liteWrite c a (.inl v) be al dl sync u = Res.andThen (axiWrite c a [v] none .incr [be] al dl sync u) (fun _ => ofExcept (createBinaryInt 0 2 >>= fun v => .ok v.bits)) := fun _ => rfl
    rw [e2]
    generalize axiWrite c a [v] none .incr [be] al dl sync ⟨s.phase, s.out.1, s.prev, s.cur, s.rest⟩ = x
    obtain ⟨t, e⟩ := x
    cases e with
    | ok u s' =>
      refine ⟨?_, fun s' h => (by cases h), fun y s' h => (by cases y <;> cases h; rfl)⟩
      show List.map _ (t ++ []) ++ [] = _
      rw [List.append_nil, List.append_nil]
    | err e s' => exact ⟨rfl, fun s' h => (by cases h), fun y s' h => (by cases y <;> cases h; rfl)⟩
    | blocked s' => exact ⟨rfl, fun s' h => ⟨_, rfl⟩, fun y s' h => (by cases y <;> cases h)⟩
  | read a len size burst sync =>
    obtain ⟨o1, o2, o5, o6⟩ := hop
    refine axStep_read c hc _ a o2 len size burst sync _ o5 o6 (by rw [o1]; intro h; cases h) s hs (fun i hi => (hg i hi).1) E kr mem ⟨rfl, rfl, rfl, rfl⟩ _ _ rfl ?_ hserve
    have e : axStep c (.read a len size burst sync) s = Res.andThen (onRead (axiRead c a len size burst false sync) s) (fun d => pure (d.elim id (fun l => l.map Prod.fst))) := rfl
    rw [e]
    unfold onRead
    simp only
    generalize axiRead c a len size burst false sync ⟨s.phase, s.out.2, s.prev, s.cur, s.rest⟩ = x
    obtain ⟨t, e⟩ := x
    cases e with
    | ok u s' => exact ⟨List.append_nil _, fun s' h => (by cases h), fun y s' h _ => (by cases y <;> cases h; rfl)⟩
    | err e s' => exact ⟨rfl, fun s' h => (by cases h), fun y s' h _ => (by cases y <;> cases h; rfl)⟩
    | blocked s' => exact ⟨rfl, fun s' h => ⟨_, rfl⟩, fun y s' h _ => (by cases y <;> cases h)⟩
  | liteRead a sync =>
    obtain ⟨o1, o2⟩ := hop
    have hl : Legal c a 1 none .incr c.dataBytes := legal_single c hc a
    refine axStep_read c hc _ a o2 1 none .incr sync _ hl (fun h => by cases h) (fun _ => ⟨rfl, rfl, rfl⟩) s hs (fun i hi => (hg i hi).1) E kr mem ⟨rfl, rfl, rfl, rfl⟩ _ _ rfl ?_ hserve
    have e : axStep c (.liteRead a sync) s = Res.andThen (onRead (liteRead c a sync) s) (fun d => pure [d]) := rfl
    rw [e]
    unfold onRead
    simp only
    have e2 : ∀ u, liteRead c a sync u = Res.andThen (axiRead c a 1 none .incr false sync u) liteFirst := fun _ => rfl
    rw [e2]
    generalize axiRead c a 1 none .incr false sync ⟨s.phase, s.out.2, s.prev, s.cur, s.rest⟩ = x
    obtain ⟨t, e⟩ := x
    cases e with
    | ok u s' =>
      cases u with
      | inl l =>
        cases l with
        | nil =>
          refine ⟨by show List.map _ (t ++ []) = _; rw [List.append_nil], fun s' h => (by cases h), ?_⟩
          intro y s' h hy
          cases y with
          | error e => cases h
          | ok w => cases h; cases hy [] rfl
        | cons d l =>
          refine ⟨by show List.map _ (t ++ []) ++ [] = _; rw [List.append_nil, List.append_nil], fun s' h => (by cases h), ?_⟩
          intro y s' h hy
          cases y with
          | error e => cases h
          | ok w =>
            cases h
            have := hy _ rfl
            injection this with h1 h2
            subst h2
            rfl
      | inr l => exact ⟨by show List.map _ (t ++ []) = _; rw [List.append_nil], fun s' h => (by cases h), fun y s' h _ => (by cases y <;> cases h)⟩
    | err e s' => exact ⟨rfl, fun s' h => (by cases h), fun y s' h _ => (by cases y <;> cases h; rfl)⟩
    | blocked s' => exact ⟨rfl, fun s' h => ⟨_, rfl⟩, fun y s' h _ => (by cases y <;> cases h)⟩
  | pause n =>
    obtain ⟨h1, _, h3⟩ := edges_const (I := AxIn) n s hs.1
    have hin := Good.edges (I := AxIn) (O := AxAll) n
    have e : axStep c (.pause n) s = Res.andThen ((edges n : M AxIn AxAll Unit) s) (fun _ => pure []) := rfl
    have hq : ∀ q ∈ ((edges n : M AxIn AxAll Unit) s).1, QuietAt c q := by
      intro q hq
      have := h1 q hq
      refine ⟨?_, ?_, ?_⟩
      · simp [Stream.xfer, awStream, this, hs.2.1]
      · simp [Stream.xfer, wStream, this, hs.2.2.1]
      · simp [Stream.xfer, arStream, this, hs.2.2.2]
    rw [e]
    rcases h3 with ⟨u, h3, h4, h5⟩ | ⟨u, h3⟩
    · refine .inr ⟨u, ?_, ⟨h4, by rw [h5]; exact hs.2.1, by rw [h5]; exact hs.2.2.1, by rw [h5]; exact hs.2.2.2⟩, ?_, Good.end_inputs hin (a := .ok ()) h3⟩
      · unfold Res.andThen
        rw [show ((edges n : M AxIn AxAll Unit) s) = (((edges n : M AxIn AxAll Unit) s).1, ((edges n : M AxIn AxAll Unit) s).2) from rfl, h3]
        rfl
      · have : (Res.andThen ((edges n : M AxIn AxAll Unit) s) (fun _ => (pure [] : M AxIn AxAll (List LogicArray)))).1 = ((edges n : M AxIn AxAll Unit) s).1 := by
          unfold Res.andThen
          rw [show ((edges n : M AxIn AxAll Unit) s) = (((edges n : M AxIn AxAll Unit) s).1, ((edges n : M AxIn AxAll Unit) s).2) from rfl, h3]
          exact List.append_nil _
        rw [this]
        exact run_idle c E kr mem _ hq
    · left
      refine ⟨u, ?_⟩
      unfold Res.andThen
      rw [show ((edges n : M AxIn AxAll Unit) s) = (((edges n : M AxIn AxAll Unit) s).1, ((edges n : M AxIn AxAll Unit) s).2) from rfl, h3]

theorem axUse_eq (c : AxCfg) (op : AxOp) (ops : List AxOp) (s : Sim AxIn AxAll) :
    axUse c (op :: ops) s = match axStep c op s with
      | (t, .ok d s') => (.ok d :: (axUse c ops s').1, t ++ (axUse c ops s').2.1, (axUse c ops s').2.2)
      | (t, .err (.axiProtocol n) s') => (.error (.axiProtocol n) :: (axUse c ops s').1, t ++ (axUse c ops s').2.1, (axUse c ops s').2.2)
      | (t, .err e s') => ([], t, .err e s')
      | (t, .blocked s') => ([], t, .blocked s') := rfl

/-- the rest of a test after a step that was not cut short -/
theorem axUse_cons (c : AxCfg) (op : AxOp) (ops : List AxOp) (s : Sim AxIn AxAll) (t : List (AxAll × AxIn)) (y : Except PyErr (List LogicArray)) (s' : Sim AxIn AxAll)
    (h : axStep c op s = (t, endWith y s')) (hy : ∀ e, y = .error e → ∃ n, e = .axiProtocol n) :
    axUse c (op :: ops) s = (y :: (axUse c ops s').1, t ++ (axUse c ops s').2.1, (axUse c ops s').2.2) := by
  rw [axUse_eq, h]
  cases y with
  | ok d => rfl
  | error e => obtain ⟨n, rfl⟩ := hy e rfl; rfl

theorem axUse_blocked (c : AxCfg) (op : AxOp) (ops : List AxOp) (s : Sim AxIn AxAll) (t : List (AxAll × AxIn)) (s' : Sim AxIn AxAll)
    (h : axStep c op s = (t, .blocked s')) : axUse c (op :: ops) s = ([], t, .blocked s') := by
  rw [axUse_eq, h]

theorem axOutcome_err {c : AxCfg} {code : Nat → Nat} {op : AxOp} {mem : Nat → Byte} {e : PyErr} (h : axOutcome c code op mem = .error e) : ∃ n, e = .axiProtocol n := by
  unfold axOutcome at h
  split at h
  · injection h with h; exact ⟨_, h.symm⟩
  · cases h

/-- what a step did, once its trace is known to be that of a bus with a memory -/
theorem axUse_step (c : AxCfg) (hc : Standard c) (op : AxOp) (ops : List AxOp) (hop : AxOpOk c op) (s : Sim AxIn AxAll) (hs : AxReady s)
    (hg : ∀ i ∈ s.cur :: s.rest, GoodBeat c.dataBytes i ∧ GoodResp i) (E : Nat → Nat → Nat) (kr : Nat) (mem : Nat → Byte)
    (hserve : AxMem.Serves c (AxMem.idle E kr mem) (axUse c (op :: ops) s).2.1) :
    AxMem.Serves c (AxMem.idle E kr mem) (axStep c op s).1 ∧ AxStepOk c op s E kr mem (axStep c op s) := by
  have h0 : AxMem.Serves c (AxMem.idle E kr mem) (axStep c op s).1 := by
    rw [axUse_eq] at hserve
    split at hserve
    · rename_i h; rw [h]; exact ((serves_append c _ _ _).1 hserve).1
    · rename_i h; rw [h]; exact ((serves_append c _ _ _).1 hserve).1
    · rename_i h; rw [h]; exact hserve
    · rename_i h; rw [h]; exact hserve
  exact ⟨h0, axStep_ok c hc op hop s hs hg E kr mem h0⟩

theorem axUse_ok (c : AxCfg) (hc : Standard c) (E : Nat → Nat → Nat) (ops : List AxOp) : ∀ (s : Sim AxIn AxAll) (kr : Nat) (mem : Nat → Byte), (∀ op ∈ ops, AxOpOk c op) → AxReady s →
    (∀ i ∈ s.cur :: s.rest, GoodBeat c.dataBytes i ∧ GoodResp i) → AxMem.Serves c (AxMem.idle E kr mem) (axUse c ops s).2.1 →
    (∃ l, (axUse c ops s).1 ++ l = axOutcomes c E kr ops mem) ∧
    ((∃ s', (axUse c ops s).2.2 = .blocked s') ∨
     (∃ s', (axUse c ops s).2.2 = .ok () s' ∧ (axUse c ops s).1 = axOutcomes c E kr ops mem ∧
       AxMem.run c (AxMem.idle E kr mem) (axUse c ops s).2.1 = AxMem.idle E (kr + (ops.map axRequests).sum) (axLast c E kr ops mem))) := by
  induction ops with
  | nil =>
    intro s kr mem _ hs hg hserve
    exact ⟨⟨[], rfl⟩, .inr ⟨s, rfl, rfl, rfl⟩⟩
  | cons op ops ih =>
    intro s kr mem hops hs hg hserve
    obtain ⟨h0, h⟩ := axUse_step c hc op ops (hops op (by simp)) s hs hg E kr mem hserve
    rcases h with ⟨s', h⟩ | ⟨s', h1, h2, h3, h4⟩
    · rw [axUse_blocked c op ops s (axStep c op s).1 s' (by rw [← h])]
      exact ⟨⟨_, rfl⟩, .inl ⟨s', rfl⟩⟩
    · have e := axUse_cons c op ops s (axStep c op s).1 _ s' (by rw [← h1]) (fun e he => axOutcome_err he)
      rw [e] at hserve ⊢
      simp only at hserve ⊢
      rw [serves_append, h3] at hserve
      obtain ⟨⟨l, g1⟩, g2⟩ := ih s' (kr + axRequests op) (axNext c (E kr) op mem) (fun o ho => hops o (by simp [ho])) h2 (fun i hi => hg i (h4 i hi)) hserve.2
      refine ⟨⟨l, by rw [List.cons_append, g1]; rfl⟩, ?_⟩
      rcases g2 with g2 | ⟨s2, g2, g3, g4⟩
      · exact .inl g2
      · refine .inr ⟨s2, g2, by rw [g3]; rfl, ?_⟩
        rw [axRun_append, h3, g4, List.map_cons, List.sum_cons, Nat.add_assoc]
        rfl

end CocotbBus
