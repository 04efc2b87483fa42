import Verif.Spec.Opb
import Verif.Proof.AvalonMM

namespace CocotbBus
open Coro Spec

theorem quiet_reset (c m : Nat) (l : List Logic) (hc : c < 16) :
    Quiet16 (List.replicate c .zero ++ .one :: l) (c + (m + 1)) ↔ Quiet16 l m := by
  have hidx : ∀ k, (List.replicate c Logic.zero ++ .one :: l)[c + 1 + k]? = l[k]? := by
    intro k
    rw [List.getElem?_append_right (by simp; omega)]
    have : c + 1 + k - (List.replicate c Logic.zero).length = k + 1 := by simp; omega
    rw [this, List.getElem?_cons_succ]
  have hat : (List.replicate c Logic.zero ++ .one :: l)[c]? = some .one := by
    rw [List.getElem?_append_right (by simp)]; simp
  constructor
  · rintro ⟨h1, h2⟩
    have h3 : c < c + (m + 1) - 16 := by
      rcases Nat.lt_or_ge c (c + (m + 1) - 16) with h | h
      · exact h
      · have := h2 c h (by omega)
        rw [hat] at this; cases this
    refine ⟨by omega, fun k hk hkm => ?_⟩
    rw [← hidx k]
    exact h2 _ (by omega) (by omega)
  · rintro ⟨h1, h2⟩
    refine ⟨by omega, fun k hk hkm => ?_⟩
    obtain ⟨j, rfl⟩ : ∃ j, k = c + 1 + j := ⟨k - (c + 1), by omega⟩
    rw [hidx]
    exact h2 j (by omega) (by omega)

theorem quiet_shift (c m : Nat) (l : List Logic) :
    Quiet16 (List.replicate c .zero ++ .zero :: l) (c + (m + 1)) ↔ Quiet16 (List.replicate (c + 1) .zero ++ l) (c + 1 + m) := by
  have h : (List.replicate c Logic.zero ++ .zero :: l) = List.replicate (c + 1) .zero ++ l := by
    rw [List.replicate_succ']; simp
  rw [h, show c + (m + 1) = c + 1 + m by omega]

theorem noAck_cons (v : Logic) (l : List Logic) (n : Nat) : NoAckBefore .zero (v :: l) (n + 1) ↔ NoAckBefore v l n := by
  constructor
  · intro h k hk
    have := h (k + 1) (by omega)
    simpa using this
  · intro h k hk
    cases k with
    | zero => rfl
    | succ k => simpa using h k (by omega)

/-- what the wait does, in terms of the cycles it sees; `c` quiet cycles have been counted before -/
inductive WaitEnd (c : Nat) (a₀ : Logic) (s : Sim OpbIn OpbOut) : Res OpbIn OpbOut Unit → Prop
  | timeout (n : Nat) (t : List (OpbOut × OpbIn)) (s' : Sim OpbIn OpbOut) (ht : t.map (·.1) = List.replicate n s.out)
      (hn : n ≤ s.rest.length) (hout : s'.out = s.out) (hph : s'.phase = .ro)
      (hq : Quiet16 (List.replicate c .zero ++ s.rest.map (·.toutSup)) (c + n))
      (hq' : ∀ m : Nat, m < n → ¬ Quiet16 (List.replicate c .zero ++ s.rest.map (·.toutSup)) (c + m))
      (ha : NoAckBefore a₀ (s.rest.map (·.xferAck)) n) : WaitEnd c a₀ s (t, .err .opbException s')
  | acked (n : Nat) (t : List (OpbOut × OpbIn)) (s' : Sim OpbIn OpbOut) (ht : t.map (·.1) = List.replicate n s.out)
      (hn : n ≤ s.rest.length) (hout : s'.out = s.out) (hph : (n = 0 ∧ s' = s) ∨ (0 < n ∧ s'.phase = .ro ∧ s.rest[n - 1]? = some s'.cur))
      (hq' : ∀ m : Nat, m ≤ n → ¬ Quiet16 (List.replicate c .zero ++ s.rest.map (·.toutSup)) (c + m))
      (ha : NoAckBefore a₀ (s.rest.map (·.xferAck)) n) (hat : (a₀ :: s.rest.map (·.xferAck))[n]? = some .one) : WaitEnd c a₀ s (t, .ok () s')
  | blocked (t : List (OpbOut × OpbIn)) (s' : Sim OpbIn OpbOut) (ht : t.map (·.1) = List.replicate s.rest.length s.out)
      (hout : s'.out = s.out)
      (hq' : ∀ m : Nat, m ≤ s.rest.length → ¬ Quiet16 (List.replicate c .zero ++ s.rest.map (·.toutSup)) (c + m))
      (ha : NoAckBefore a₀ (s.rest.map (·.xferAck)) (s.rest.length + 1)) : WaitEnd c a₀ s (t, .blocked s')

/-- the value of the pins that a read gives -/
def pins (s : Sim OpbIn OpbOut) : OpbIn :=
  match s.phase with
  | .edge => s.prev
  | _ => s.cur

theorem opbBody_ack (c : Nat) (s : Sim OpbIn OpbOut) (h : (pins s).xferAck = .one) : opbBody c s = ([], .ok (.inr ()) s) := by
  unfold opbBody
  rw [bind_silent inp _ s s (pins s) rfl, h]
  rfl

theorem opbBody_end (c : Nat) (s : Sim OpbIn OpbOut) (h : (pins s).xferAck = .zero) (hr : s.rest = []) : opbBody c s = ([], .blocked s) := by
  unfold opbBody
  rw [bind_silent inp _ s s (pins s) rfl, h]
  rw [show intOf .zero = .ok 0 from rfl]
  simp only [bind_ofExcept_ok, ne_eq, not_true_eq_false, if_false]
  exact bind_awaitEdge_nil _ _ hr

theorem opbBody_step (c : Nat) (s : Sim OpbIn OpbOut) (h : (pins s).xferAck = .zero) (i : OpbIn) (r : List OpbIn) (hr : s.rest = i :: r)
    (n : Nat) (hi : intOf i.toutSup = .ok n) :
    opbBody c s = ([(s.out, s.cur)],
      if (if n ≠ 0 then 0 else c + 1) ≥ opbMax then .err .opbException { s with phase := .ro, prev := s.cur, cur := i, rest := r }
      else .ok (.inl (if n ≠ 0 then 0 else c + 1)) { s with phase := .ro, prev := s.cur, cur := i, rest := r }) := by
  unfold opbBody
  rw [bind_silent inp _ s s (pins s) rfl, h]
  rw [show intOf .zero = .ok 0 from rfl]
  simp only [bind_ofExcept_ok, ne_eq, not_true_eq_false, if_false]
  rw [bind_awaitEdge_cons _ _ i r hr, bind_readOnly _ _ _ (by simp), bind_inp_ro _ _ rfl]
  simp only []
  rw [hi, bind_ofExcept_ok]
  by_cases h1 : (if n ≠ 0 then 0 else c + 1) ≥ opbMax
  · rw [if_pos h1, if_pos h1]; rfl
  · rw [if_neg h1, if_neg h1]; rfl

theorem opbBody_consumes : Consumes opbBody := by
  intro b s t b' s' h
  unfold opbBody at h
  rw [bind_silent inp _ s s (pins s) rfl] at h
  cases ha : intOf (pins s).xferAck with
  | error e => rw [ha, bind_ofExcept_error] at h; cases h
  | ok n =>
    rw [ha, bind_ofExcept_ok] at h
    by_cases hn : n = 0
    · simp only [hn, ne_eq, not_true_eq_false, if_false] at h
      cases hr : s.rest with
      | nil => rw [bind_awaitEdge_nil _ _ hr] at h; cases h
      | cons i r =>
        rw [bind_awaitEdge_cons _ _ i r hr, bind_readOnly _ _ _ (by simp), bind_inp_ro _ _ rfl] at h
        simp only [] at h
        cases ht : intOf i.toutSup with
        | error e => rw [ht, bind_ofExcept_error] at h; cases h
        | ok m =>
          rw [ht, bind_ofExcept_ok] at h
          by_cases h1 : (if m ≠ 0 then 0 else b + 1) ≥ opbMax
          · simp only [ne_eq] at h1
            rw [if_pos h1] at h; cases h
          · simp only [ne_eq] at h1
            rw [if_neg h1] at h; cases h; simp
    · simp only [hn, ne_eq, not_false_eq_true, if_true] at h
      cases h

theorem opbLoop_spec (rest : List OpbIn) : ∀ (c : Nat) (s : Sim OpbIn OpbOut), s.rest = rest → c < 16 → Binary (pins s).xferAck →
    (∀ i ∈ rest, Binary i.xferAck ∧ Binary i.toutSup) → WaitEnd c (pins s).xferAck s (loop opbBody c s) := by
  induction rest with
  | nil =>
    intro c s hr hc ha _
    rw [loop_unfold opbBody opbBody_consumes, bind_run]
    rcases ha with ha | ha
    · rw [opbBody_end c s ha hr, ha]
      refine .blocked [] s (by simp [hr]) rfl (fun m hm => ?_) (fun k hk => ?_)
      · rintro ⟨h1, _⟩
        simp [hr] at hm; omega
      · have : k = 0 := by simp [hr] at hk; omega
        subst this; rfl
    · rw [opbBody_ack c s ha, ha]
      refine .acked 0 [] s rfl (by omega) rfl (.inl ⟨rfl, rfl⟩) (fun m hm => ?_) (fun k hk => by omega) rfl
      rintro ⟨h1, _⟩; omega
  | cons i r ih =>
    intro c s hr hc ha hb
    rw [loop_unfold opbBody opbBody_consumes, bind_run]
    rcases ha with ha | ha
    · obtain ⟨hbi, hbt⟩ := hb i (by simp)
      have hbr : ∀ j ∈ r, Binary j.xferAck ∧ Binary j.toutSup := fun j hj => hb j (by simp [hj])
      have hno : ¬ Quiet16 (List.replicate c .zero ++ s.rest.map (·.toutSup)) (c + 0) := fun h => by have := h.1; omega
      -- glue one more cycle in front
      have glue : ∀ (c' : Nat) (X : Res OpbIn OpbOut Unit), (∀ m, Quiet16 (List.replicate c .zero ++ s.rest.map (·.toutSup)) (c + (m + 1)) ↔
            Quiet16 (List.replicate c' .zero ++ r.map (·.toutSup)) (c' + m)) →
          WaitEnd c' i.xferAck { s with phase := .ro, prev := s.cur, cur := i, rest := r } X →
          WaitEnd c .zero s ((s.out, s.cur) :: X.1, X.2) := by
        intro c' X hq hX
        have hq'' : ∀ (n : Nat), (∀ m : Nat, m < n → ¬ Quiet16 (List.replicate c' .zero ++ r.map (·.toutSup)) (c' + m)) →
            ∀ m : Nat, m < n + 1 → ¬ Quiet16 (List.replicate c .zero ++ s.rest.map (·.toutSup)) (c + m) := by
          intro n h m hm
          cases m with
          | zero => exact hno
          | succ m => rw [hq]; exact h m (by omega)
        cases hX with
        | timeout n t s' ht hn hout hph hq1 hq2 ha1 =>
          refine .timeout (n + 1) _ s' ?_ ?_ hout hph ((hq n).2 hq1) (hq'' n hq2) ?_
          · simp only [List.map_cons, ht, List.replicate_succ]
          · rw [hr]; simpa using hn
          · rw [hr]; exact (noAck_cons _ _ _).2 ha1
        | acked n t s' ht hn hout hph hq2 ha1 hat =>
          refine .acked (n + 1) _ s' ?_ ?_ hout (.inr ⟨by omega, ?_, ?_⟩) ?_ ?_ ?_
          · simp only [List.map_cons, ht, List.replicate_succ]
          · rw [hr]; simpa using hn
          · rcases hph with ⟨_, rfl⟩ | ⟨_, h, _⟩
            · rfl
            · exact h
          · rcases hph with ⟨rfl, rfl⟩ | ⟨h0, _, h⟩
            · rw [hr]; rfl
            · rw [hr]
              obtain ⟨k, rfl⟩ : ∃ k, n = k + 1 := ⟨n - 1, by omega⟩
              simpa using h
          · intro m hm
            exact hq'' (n + 1) (fun m hm => hq2 m (by omega)) m (by omega)
          · rw [hr]; exact (noAck_cons _ _ _).2 ha1
          · rw [hr]; simpa using hat
        | blocked t s' ht hout hq2 ha1 =>
          refine .blocked _ s' ?_ hout ?_ ?_
          · simp only [List.map_cons, ht, hr, List.length_cons, List.replicate_succ]
          · intro m hm
            rw [hr] at hm
            exact hq'' (r.length + 1) (fun m hm => hq2 m (by simp only []; omega)) m (by simp at hm; omega)
          · rw [hr]; exact (noAck_cons _ _ _).2 ha1
      rw [ha]
      rcases hbt with ht | ht
      · -- toutSup low
        rw [opbBody_step c s ha i r hr 0 (by rw [ht]; rfl)]
        have hM : opbMax = 16 := rfl
        by_cases h16 : c + 1 ≥ opbMax
        · simp only [ne_eq, not_true_eq_false, if_false, h16, if_true, andThen_err]
          refine .timeout 1 _ _ rfl (by rw [hr]; simp) rfl rfl ⟨by omega, fun k _ hk => ?_⟩ (fun m hm => ?_) (fun k hk => ?_)
          · rw [hr]
            simp only [List.map_cons, ht]
            rcases Nat.lt_or_ge k c with h | h
            · rw [List.getElem?_append_left (by simpa using h)]; simp [h]
            · have : k = c := by omega
              subst this
              rw [List.getElem?_append_right (by simp)]; simp
          · have : m = 0 := by omega
            subst this; exact hno
          · have : k = 0 := by omega
            subst this; rfl
        · simp only [ne_eq, not_true_eq_false, if_false, h16, andThen_ok, List.singleton_append]
          refine glue (c + 1) _ (fun m => ?_) (ih (c + 1) { s with phase := .ro, prev := s.cur, cur := i, rest := r } rfl (by omega) hbi hbr)
          rw [hr, List.map_cons, ht]
          exact quiet_shift c m _
      · rw [opbBody_step c s ha i r hr 1 (by rw [ht]; rfl)]
        have hM : ¬ (0 ≥ opbMax) := by decide
        simp only [ne_eq, Nat.one_ne_zero, not_false_eq_true, if_true, hM, if_false, andThen_ok, List.singleton_append]
        refine glue 0 _ (fun m => ?_) (ih 0 { s with phase := .ro, prev := s.cur, cur := i, rest := r } rfl (by omega) hbi hbr)
        rw [hr, List.map_cons, ht, List.replicate_zero, List.nil_append, Nat.zero_add]
        exact quiet_reset c m _ hc
    · rw [opbBody_ack c s ha, ha]
      refine .acked 0 [] s rfl (by omega) rfl (.inl ⟨rfl, rfl⟩) (fun m hm => ?_) (fun k hk => by omega) rfl
      rintro ⟨h1, _⟩; omega

/-- the state in which the wait starts -/
def opbReq (c : OpbCfg) (a : Nat) (rnw : Logic) (d : OpbOut → LogicArray) (s : Sim OpbIn OpbOut) : Sim OpbIn OpbOut :=
  { s with out := { s.out with abus := natToBits c.addrW a, select := .one, rnw := rnw, be := natToBits c.beW 15, dbusOut := d s.out, busy := true } }

/-- what comes after the wait in a read -/
def opbReadEnd : M OpbIn OpbOut Nat := do
  let i ← inp
  let data ← ofExcept (toUnsigned i.dbusOut)
  write (fun o => { o with select := .zero })
  setPy (fun o => { o with busy := false })
  pure data

/-- what comes after the wait in a write -/
def opbWriteEnd : M OpbIn OpbOut Unit := do
  write (fun o => { o with select := .zero })
  setPy (fun o => { o with busy := false })

theorem opbAcquire_bind {β : Type} (k : Unit → M OpbIn OpbOut β) (s : Sim OpbIn OpbOut) (h : s.out.busy = false) :
    (opbAcquire >>= k) s = k () { s with out := { s.out with busy := true } } := by
  unfold opbAcquire
  rw [bind_assoc_run, bind_getOut, h]
  rfl

theorem opbAcquire_busy {β : Type} (k : Unit → M OpbIn OpbOut β) (s : Sim OpbIn OpbOut) (h : s.out.busy = true) :
    (opbAcquire >>= k) s = ([], .blocked s) := by
  unfold opbAcquire
  rw [bind_assoc_run, bind_getOut, h]
  rfl

theorem opbRead_run (c : OpbCfg) (a : Nat) (ha : a < 2 ^ c.addrW) (hbe : 15 < 2 ^ c.beW) (s : Sim OpbIn OpbOut) (hf : s.out.busy = false) :
    (s.phase ≠ .ro → opbRead c a false s = (opbWait >>= fun _ => opbReadEnd) (opbReq c a .one (·.dbusOut) s)) ∧
    (∀ i r, s.rest = i :: r → opbRead c a true s =
      (({ s.out with busy := true }, s.cur) :: ((opbWait >>= fun _ => opbReadEnd) (opbReq c a .one (·.dbusOut) { s with phase := .edge, prev := s.cur, cur := i, rest := r })).1,
        ((opbWait >>= fun _ => opbReadEnd) (opbReq c a .one (·.dbusOut) { s with phase := .edge, prev := s.cur, cur := i, rest := r })).2)) ∧
    (s.rest = [] → (opbRead c a true s).1 = [] ∧ ∃ s', (opbRead c a true s).2 = .blocked s') := by
  unfold opbRead
  refine ⟨fun hp => ?_, fun i r hr => ?_, fun hr => ?_⟩
  · rw [opbAcquire_bind _ _ hf]
    simp only [Coro.when, Bool.false_eq_true, if_false, pure_bind]
    rw [bind_writeInt _ _ _ ha _ _ (by exact hp), bind_write _ _ _ (by exact hp), bind_write _ _ _ (by exact hp), bind_writeInt _ _ _ hbe _ _ (by exact hp)]
    rfl
  · rw [opbAcquire_bind _ _ hf]
    simp only [Coro.when, if_true]
    rw [bind_awaitEdge_cons _ _ i r (by exact hr), bind_writeInt _ _ _ ha _ _ (by simp), bind_write _ _ _ (by simp), bind_write _ _ _ (by simp),
      bind_writeInt _ _ _ hbe _ _ (by simp)]
    rfl
  · rw [opbAcquire_bind _ _ hf]
    simp only [Coro.when, if_true]
    rw [bind_awaitEdge_nil _ _ (by exact hr)]
    exact ⟨rfl, _, rfl⟩

theorem opbWrite_run (c : OpbCfg) (a v : Nat) (ha : a < 2 ^ c.addrW) (hv : v < 2 ^ c.dataW) (hbe : 15 < 2 ^ c.beW) (s : Sim OpbIn OpbOut) (hf : s.out.busy = false) :
    (s.phase ≠ .ro → opbWrite c a v false s = (opbWait >>= fun _ => opbWriteEnd) (opbReq c a .zero (fun _ => natToBits c.dataW v) s)) ∧
    (∀ i r, s.rest = i :: r → opbWrite c a v true s =
      (({ s.out with busy := true }, s.cur) :: ((opbWait >>= fun _ => opbWriteEnd) (opbReq c a .zero (fun _ => natToBits c.dataW v) { s with phase := .edge, prev := s.cur, cur := i, rest := r })).1,
        ((opbWait >>= fun _ => opbWriteEnd) (opbReq c a .zero (fun _ => natToBits c.dataW v) { s with phase := .edge, prev := s.cur, cur := i, rest := r })).2)) ∧
    (s.rest = [] → (opbWrite c a v true s).1 = [] ∧ ∃ s', (opbWrite c a v true s).2 = .blocked s') := by
  unfold opbWrite
  refine ⟨fun hp => ?_, fun i r hr => ?_, fun hr => ?_⟩
  · rw [opbAcquire_bind _ _ hf]
    simp only [Coro.when, Bool.false_eq_true, if_false, pure_bind]
    rw [bind_writeInt _ _ _ ha _ _ (by exact hp), bind_write _ _ _ (by exact hp), bind_write _ _ _ (by exact hp), bind_writeInt _ _ _ hbe _ _ (by exact hp), bind_writeInt _ _ _ hv _ _ (by exact hp)]
    rfl
  · rw [opbAcquire_bind _ _ hf]
    simp only [Coro.when, if_true]
    rw [bind_awaitEdge_cons _ _ i r (by exact hr), bind_writeInt _ _ _ ha _ _ (by simp), bind_write _ _ _ (by simp), bind_write _ _ _ (by simp),
      bind_writeInt _ _ _ hbe _ _ (by simp), bind_writeInt _ _ _ hv _ _ (by simp)]
    rfl
  · rw [opbAcquire_bind _ _ hf]
    simp only [Coro.when, if_true]
    rw [bind_awaitEdge_nil _ _ (by exact hr)]
    exact ⟨rfl, _, rfl⟩

end CocotbBus
