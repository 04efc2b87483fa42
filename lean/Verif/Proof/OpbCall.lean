import Verif.Proof.Opb

namespace CocotbBus
open Coro Spec

/-- number of edges before the request -/
def preEdges (sync : Bool) : Nat := if sync then 1 else 0

theorem opbRead_call (c : OpbCfg) (a : Nat) (sync : Bool) (ha : a < 2 ^ c.addrW) (hbe : 15 < 2 ^ c.beW) (s : Sim OpbIn OpbOut)
    (hf : s.out.busy = false) (p : OpbIn) (cs : List OpbIn) (hr : AtRequest sync s p cs) :
    ∃ pre s0, pre.length = preEdges sync ∧ (∀ r ∈ pre, r.1 = { s.out with busy := true }) ∧ s0.rest = cs ∧ pins s0 = p ∧ s0.phase ≠ .ro ∧
      s0.out = { s.out with abus := natToBits c.addrW a, select := .one, rnw := .one, be := natToBits c.beW 15, busy := true } ∧
      opbRead c a sync s = (pre ++ ((opbWait >>= fun _ => opbReadEnd) s0).1, ((opbWait >>= fun _ => opbReadEnd) s0).2) := by
  obtain ⟨h1, h2, _⟩ := opbRead_run c a ha hbe s hf
  cases sync with
  | true =>
    obtain ⟨rfl, i, hi⟩ := hr
    exact ⟨[_], _, rfl, (by intro r hr; simp at hr; rw [hr]), rfl, rfl, (by simp [opbReq]), rfl, h2 i cs hi⟩
  | false =>
    obtain ⟨hp, rfl, rfl⟩ := hr
    exact ⟨[], opbReq c a .one (·.dbusOut) s, rfl, (by intro r hr; cases hr), rfl, rfl, hp, rfl, h1 hp⟩

theorem opbWrite_call (c : OpbCfg) (a v : Nat) (sync : Bool) (ha : a < 2 ^ c.addrW) (hv : v < 2 ^ c.dataW) (hbe : 15 < 2 ^ c.beW) (s : Sim OpbIn OpbOut)
    (hf : s.out.busy = false) (p : OpbIn) (cs : List OpbIn) (hr : AtRequest sync s p cs) :
    ∃ pre s0, pre.length = preEdges sync ∧ (∀ r ∈ pre, r.1 = { s.out with busy := true }) ∧ s0.rest = cs ∧ pins s0 = p ∧ s0.phase ≠ .ro ∧
      s0.out = { s.out with abus := natToBits c.addrW a, select := .one, rnw := .zero, be := natToBits c.beW 15, dbusOut := natToBits c.dataW v, busy := true } ∧
      opbWrite c a v sync s = (pre ++ ((opbWait >>= fun _ => opbWriteEnd) s0).1, ((opbWait >>= fun _ => opbWriteEnd) s0).2) := by
  obtain ⟨h1, h2, _⟩ := opbWrite_run c a v ha hv hbe s hf
  cases sync with
  | true =>
    obtain ⟨rfl, i, hi⟩ := hr
    exact ⟨[_], _, rfl, (by intro r hr; simp at hr; rw [hr]), rfl, rfl, (by simp [opbReq]), rfl, h2 i cs hi⟩
  | false =>
    obtain ⟨hp, rfl, rfl⟩ := hr
    exact ⟨[], opbReq c a .zero (fun _ => natToBits c.dataW v) s, rfl, (by intro r hr; cases hr), rfl, rfl, hp, rfl, h1 hp⟩

theorem opbReadEnd_ro (s : Sim OpbIn OpbOut) (h : s.phase = .ro) :
    ∃ e, opbReadEnd s = ([], .err e s) ∧ (e = .readOnlyWrite ∨ e = .valueError ∧ isResolvable s.cur.dbusOut = false) := by
  unfold opbReadEnd
  rw [bind_inp_ro _ _ h]
  unfold toUnsigned
  by_cases hr : isResolvable s.cur.dbusOut
  · rw [if_pos hr, bind_ofExcept_ok, bind_run, write_ro _ _ h]
    exact ⟨_, rfl, .inl rfl⟩
  · rw [if_neg hr, bind_ofExcept_error]
    exact ⟨_, rfl, .inr ⟨rfl, by simpa using hr⟩⟩

theorem opbReadEnd_now (s : Sim OpbIn OpbOut) (h : s.phase ≠ .ro) :
    opbReadEnd s = if isResolvable (pins s).dbusOut then ([], .ok (bitsToNat (pins s).dbusOut) { s with out := { s.out with select := .zero, busy := false } })
      else ([], .err .valueError s) := by
  unfold opbReadEnd
  rw [bind_silent inp _ s s (pins s) rfl]
  unfold toUnsigned
  by_cases hr : isResolvable (pins s).dbusOut
  · rw [if_pos hr, if_pos hr, bind_ofExcept_ok, bind_write _ _ _ h, bind_setPy]; rfl
  · rw [if_neg hr, if_neg hr, bind_ofExcept_error]

theorem opbWriteEnd_ro (s : Sim OpbIn OpbOut) (h : s.phase = .ro) : opbWriteEnd s = ([], .err .readOnlyWrite s) := by
  unfold opbWriteEnd
  rw [bind_run, write_ro _ _ h]; rfl

theorem opbWriteEnd_now (s : Sim OpbIn OpbOut) (h : s.phase ≠ .ro) :
    opbWriteEnd s = ([], .ok () { s with out := { s.out with select := .zero, busy := false } }) := by
  unfold opbWriteEnd
  rw [bind_write _ _ _ h]; rfl

/-- the possible ends of a call, `n` cycles after the request -/
inductive CallEnd {α : Type} (p : OpbIn) (cs : List OpbIn) (k : Nat) (o : OpbOut) (now : End OpbIn OpbOut α → Prop) : Res OpbIn OpbOut α → Prop
  | timeout (n : Nat) (pre t : List (OpbOut × OpbIn)) (s' : Sim OpbIn OpbOut) (hk : pre.length = k) (ht : t.map (·.1) = List.replicate n o)
      (ho : s'.out = o) (h : TimesOutAt p.xferAck cs n) : CallEnd p cs k o now (pre ++ t, .err .opbException s')
  | late (n : Nat) (pre t : List (OpbOut × OpbIn)) (e : PyErr) (s' : Sim OpbIn OpbOut) (hk : pre.length = k) (ht : t.map (·.1) = List.replicate n o)
      (ho : s'.out = o) (h : AckedAt p.xferAck cs n) (hn : 0 < n) (he : e = .readOnlyWrite ∨ e = .valueError ∧ ∃ i ∈ cs, isResolvable i.dbusOut = false) :
      CallEnd p cs k o now (pre ++ t, .err e s')
  | now (pre : List (OpbOut × OpbIn)) (e : End OpbIn OpbOut α) (hk : pre.length = k) (h : AckedAt p.xferAck cs 0) (he : now e) : CallEnd p cs k o now (pre, e)
  | blocked (pre t : List (OpbOut × OpbIn)) (s' : Sim OpbIn OpbOut) (hk : pre.length = k) (ht : t.map (·.1) = List.replicate cs.length o)
      (ho : s'.out = o) (hq : ∀ m : Nat, m ≤ cs.length → ¬ Quiet16 (cs.map (·.toutSup)) m) (ha : NoAckBefore p.xferAck (cs.map (·.xferAck)) (cs.length + 1)) :
      CallEnd p cs k o now (pre ++ t, .blocked s')

theorem opbWait_call {α : Type} (E : M OpbIn OpbOut α) (now : End OpbIn OpbOut α → Prop) (s0 : Sim OpbIn OpbOut) (pre : List (OpbOut × OpbIn))
    (hE : ∀ s, s.phase = .ro → ∃ e, E s = ([], .err e s) ∧ (e = .readOnlyWrite ∨ e = .valueError ∧ isResolvable s.cur.dbusOut = false))
    (hnow : ∃ e, E s0 = ([], e) ∧ now e) (hb : Binary (pins s0).xferAck) (hbs : ∀ i ∈ s0.rest, Binary i.xferAck ∧ Binary i.toutSup) :
    CallEnd (pins s0) s0.rest pre.length s0.out now (pre ++ ((opbWait >>= fun _ => E) s0).1, ((opbWait >>= fun _ => E) s0).2) := by
  have hw := opbLoop_spec s0.rest 0 s0 rfl (by omega) hb hbs
  rw [bind_run]
  unfold opbWait
  generalize loop opbBody 0 s0 = X at hw
  cases hw with
  | timeout n t s' ht hn hout hph hq hq' ha =>
    simp only [List.replicate_zero, List.nil_append, Nat.zero_add] at hq hq'
    exact .timeout n pre t s' rfl ht hout ⟨hq, hq', ha⟩
  | acked n t s' ht hn hout hph hq' ha hat =>
    simp only [List.replicate_zero, List.nil_append, Nat.zero_add] at hq'
    rcases hph with ⟨rfl, rfl⟩ | ⟨h0, hro, hcur⟩
    · obtain ⟨e, he, hne⟩ := hnow
      have : t = [] := by simpa using ht
      subst this
      simp only [andThen_ok, he, List.append_nil]
      exact .now pre e rfl ⟨hq', ha, hat⟩ hne
    · obtain ⟨e, he, hee⟩ := hE s' hro
      simp only [andThen_ok, he, List.append_nil]
      refine .late n pre t e s' rfl ht hout ⟨hq', ha, hat⟩ h0 ?_
      rcases hee with h | ⟨h, h'⟩
      · exact .inl h
      · exact .inr ⟨h, s'.cur, List.mem_of_getElem? hcur, h'⟩
  | blocked t s' ht hout hq' ha =>
    simp only [List.replicate_zero, List.nil_append, Nat.zero_add] at hq'
    exact .blocked pre t s' rfl ht hout hq' ha

theorem opbRead_end (c : OpbCfg) (a : Nat) (sync : Bool) (ha : a < 2 ^ c.addrW) (hbe : 15 < 2 ^ c.beW) (s : Sim OpbIn OpbOut)
    (hf : s.out.busy = false) (p : OpbIn) (cs : List OpbIn) (hr : AtRequest sync s p cs) (hb : Binary p.xferAck) (hbs : ∀ i ∈ cs, Binary i.xferAck ∧ Binary i.toutSup) :
    CallEnd p cs (preEdges sync) { s.out with abus := natToBits c.addrW a, select := .one, rnw := .one, be := natToBits c.beW 15, busy := true }
      (fun e => if isResolvable p.dbusOut then ∃ s', e = .ok (bitsToNat p.dbusOut) s' ∧ s'.out.select = .zero ∧ s'.out.busy = false
        else ∃ s', e = .err .valueError s' ∧ s'.out.select = .one ∧ s'.out.busy = true)
      (opbRead c a sync s) := by
  obtain ⟨pre, s0, h1, h2, h3, h4, h5, h6, h7⟩ := opbRead_call c a sync ha hbe s hf p cs hr
  rw [h7, ← h1, ← h6]
  subst h3 h4
  refine opbWait_call opbReadEnd _ s0 pre opbReadEnd_ro
    ⟨if isResolvable (pins s0).dbusOut then .ok (bitsToNat (pins s0).dbusOut) { s0 with out := { s0.out with select := .zero, busy := false } }
      else .err .valueError s0, ?_, ?_⟩ hb hbs
  · rw [opbReadEnd_now s0 h5]; split <;> rfl
  · split
    · exact ⟨_, rfl, rfl, rfl⟩
    · exact ⟨_, rfl, by rw [h6], by rw [h6]⟩

theorem opbWrite_end (c : OpbCfg) (a v : Nat) (sync : Bool) (ha : a < 2 ^ c.addrW) (hv : v < 2 ^ c.dataW) (hbe : 15 < 2 ^ c.beW) (s : Sim OpbIn OpbOut)
    (hf : s.out.busy = false) (p : OpbIn) (cs : List OpbIn) (hr : AtRequest sync s p cs) (hb : Binary p.xferAck) (hbs : ∀ i ∈ cs, Binary i.xferAck ∧ Binary i.toutSup) :
    CallEnd p cs (preEdges sync) { s.out with abus := natToBits c.addrW a, select := .one, rnw := .zero, be := natToBits c.beW 15, dbusOut := natToBits c.dataW v, busy := true }
      (fun e => ∃ s', e = .ok () s' ∧ s'.out.select = .zero ∧ s'.out.busy = false) (opbWrite c a v sync s) := by
  obtain ⟨pre, s0, h1, h2, h3, h4, h5, h6, h7⟩ := opbWrite_call c a v sync ha hv hbe s hf p cs hr
  rw [h7, ← h1, ← h6]
  subst h3 h4
  exact opbWait_call opbWriteEnd _ s0 pre (fun s h => ⟨_, opbWriteEnd_ro s h, .inl rfl⟩) ⟨_, opbWriteEnd_now s0 h5, _, rfl, rfl, rfl⟩ hb hbs

/-- the ends exclude each other -/
theorem quiet16_len (l : List Logic) (n : Nat) (h : Quiet16 l n) : n ≤ l.length := by
  obtain ⟨h1, h2⟩ := h
  have := h2 (n - 1) (by omega) (by omega)
  obtain ⟨hl, _⟩ := List.getElem?_eq_some_iff.1 this
  omega

theorem timesOut_unique (a₀ : Logic) (cs : List OpbIn) (n m : Nat) (h : TimesOutAt a₀ cs n) (h' : TimesOutAt a₀ cs m) : n = m := by
  rcases Nat.lt_trichotomy n m with hlt | he | hgt
  · exact absurd h.1 (h'.2.1 n hlt)
  · exact he
  · exact absurd h'.1 (h.2.1 m hgt)

theorem timesOut_not_acked (a₀ : Logic) (cs : List OpbIn) (n m : Nat) (h : TimesOutAt a₀ cs n) (h' : AckedAt a₀ cs m) : False := by
  rcases Nat.lt_or_ge m n with hlt | hge
  · have := h.2.2 m hlt
    rw [h'.2.2] at this; cases this
  · exact h'.1 n hge h.1

theorem acked_unique (a₀ : Logic) (cs : List OpbIn) (n m : Nat) (h : AckedAt a₀ cs n) (h' : AckedAt a₀ cs m) : n = m := by
  rcases Nat.lt_trichotomy n m with hlt | he | hgt
  · have := h'.2.1 n hlt
    rw [h.2.2] at this; cases this
  · exact he
  · have := h.2.1 m hgt
    rw [h'.2.2] at this; cases this

theorem acked_len (a₀ : Logic) (cs : List OpbIn) (n : Nat) (h : AckedAt a₀ cs n) : n ≤ cs.length := by
  obtain ⟨hl, _⟩ := List.getElem?_eq_some_iff.1 h.2.2
  simp at hl; omega

theorem CallEnd.timeout_iff {α : Type} {p : OpbIn} {cs : List OpbIn} {k : Nat} {o : OpbOut} {now : End OpbIn OpbOut α → Prop} {r : Res OpbIn OpbOut α}
    (h : CallEnd p cs k o now r) (hnow : ∀ e s', now e → e ≠ .err .opbException s') (n : Nat) :
    (r.1.length = k + n ∧ ∃ s', r.2 = .err .opbException s') ↔ TimesOutAt p.xferAck cs n := by
  cases h with
  | timeout n' pre t s' hk ht ho h' =>
    have hl : t.length = n' := by simpa using congrArg List.length ht
    constructor
    · rintro ⟨h1, _⟩
      have : n = n' := by simp at h1; omega
      rw [this]; exact h'
    · intro h2
      have := timesOut_unique _ _ _ _ h' h2
      subst this
      exact ⟨by simp; omega, _, rfl⟩
  | late n' pre t e s' hk ht ho h' hn he =>
    constructor
    · rintro ⟨_, s'', h1⟩
      cases h1
      rcases he with h | ⟨h, _⟩ <;> cases h
    · intro h2; exact (timesOut_not_acked _ _ _ _ h2 h').elim
  | now pre e hk h' he =>
    constructor
    · rintro ⟨_, s'', h1⟩
      exact (hnow _ _ he h1).elim
    · intro h2; exact (timesOut_not_acked _ _ _ _ h2 h').elim
  | blocked pre t s' hk ht ho hq ha =>
    constructor
    · rintro ⟨_, s'', h1⟩; cases h1
    · intro h2
      have := quiet16_len _ _ h2.1
      exact (hq n (by simpa using this) h2.1).elim

theorem CallEnd.late_of {α : Type} {p : OpbIn} {cs : List OpbIn} {k : Nat} {o : OpbOut} {now : End OpbIn OpbOut α → Prop} {r : Res OpbIn OpbOut α}
    (h : CallEnd p cs k o now r) (n : Nat) (hn : 0 < n) (ha : AckedAt p.xferAck cs n) :
    ∃ e s', r.2 = .err e s' ∧ r.1.length = k + n ∧ s'.out = o ∧ (e = .readOnlyWrite ∨ e = .valueError ∧ ∃ i ∈ cs, isResolvable i.dbusOut = false) := by
  cases h with
  | timeout n' pre t s' hk ht ho h' => exact (timesOut_not_acked _ _ _ _ h' ha).elim
  | late n' pre t e s' hk ht ho h' hn' he =>
    have hl : t.length = n' := by simpa using congrArg List.length ht
    have := acked_unique _ _ _ _ h' ha
    subst this
    exact ⟨e, s', rfl, by simp; omega, ho, he⟩
  | now pre e hk h' he =>
    have := acked_unique _ _ _ _ h' ha
    omega
  | blocked pre t s' hk ht ho hq h' =>
    have := h' n (by have := acked_len _ _ _ ha; omega)
    rw [ha.2.2] at this; cases this

theorem CallEnd.now_of {α : Type} {p : OpbIn} {cs : List OpbIn} {k : Nat} {o : OpbOut} {now : End OpbIn OpbOut α → Prop} {r : Res OpbIn OpbOut α}
    (h : CallEnd p cs k o now r) (ha : AckedAt p.xferAck cs 0) : r.1.length = k ∧ now r.2 := by
  cases h with
  | timeout n' pre t s' hk ht ho h' => exact (timesOut_not_acked _ _ _ _ h' ha).elim
  | late n' pre t e s' hk ht ho h' hn' he =>
    have := acked_unique _ _ _ _ h' ha
    omega
  | now pre e hk h' he => exact ⟨hk, he⟩
  | blocked pre t s' hk ht ho hq h' =>
    have := h' 0 (by omega)
    rw [ha.2.2] at this; cases this

/-- from the request on, the outputs are constant -/
theorem CallEnd.held {α : Type} {p : OpbIn} {cs : List OpbIn} {k : Nat} {o : OpbOut} {now : End OpbIn OpbOut α → Prop} {r : Res OpbIn OpbOut α}
    (h : CallEnd p cs k o now r) : ∀ x ∈ r.1.drop k, x.1 = o := by
  have key : ∀ (n : Nat) (pre t : List (OpbOut × OpbIn)), pre.length = k → t.map (·.1) = List.replicate n o → ∀ x ∈ (pre ++ t).drop k, x.1 = o := by
    intro n pre t hk ht x hx
    rw [List.drop_left' hk] at hx
    have : x.1 ∈ t.map (·.1) := List.mem_map_of_mem hx
    rw [ht] at this
    exact List.eq_of_mem_replicate this
  cases h with
  | timeout n' pre t s' hk ht ho h' => exact key n' pre t hk ht
  | late n' pre t e s' hk ht ho h' hn' he => exact key n' pre t hk ht
  | now pre e hk h' he => intro x hx; rw [List.drop_of_length_le (by simp only []; omega)] at hx; cases hx
  | blocked pre t s' hk ht ho hq h' => exact key _ pre t hk ht

/-- an exception leaves the outputs as they were -/
theorem CallEnd.err_out {α : Type} {p : OpbIn} {cs : List OpbIn} {k : Nat} {o : OpbOut} {now : End OpbIn OpbOut α → Prop} {r : Res OpbIn OpbOut α}
    (h : CallEnd p cs k o now r) (hnow : ∀ e x s', now e → e = .err x s' → s'.out.select = .one ∧ s'.out.busy = true)
    (ho1 : o.select = .one) (ho2 : o.busy = true) (x : PyErr) (s' : Sim OpbIn OpbOut) (hr : r.2 = .err x s') : s'.out.select = .one ∧ s'.out.busy = true := by
  cases h with
  | timeout n' pre t s'' hk ht ho h' => cases hr; rw [ho]; exact ⟨ho1, ho2⟩
  | late n' pre t e s'' hk ht ho h' hn' he => cases hr; rw [ho]; exact ⟨ho1, ho2⟩
  | now pre e hk h' he => exact hnow _ _ _ he hr
  | blocked pre t s'' hk ht ho hq h' => cases hr

/-- only an acknowledge at the request lets a call return -/
theorem CallEnd.ok_now {α : Type} {p : OpbIn} {cs : List OpbIn} {k : Nat} {o : OpbOut} {now : End OpbIn OpbOut α → Prop} {r : Res OpbIn OpbOut α}
    (h : CallEnd p cs k o now r) (x : α) (s' : Sim OpbIn OpbOut) (hr : r.2 = .ok x s') : AckedAt p.xferAck cs 0 := by
  cases h with
  | timeout n' pre t s'' hk ht ho h' => cases hr
  | late n' pre t e s'' hk ht ho h' hn' he => cases hr
  | now pre e hk h' he => exact h'
  | blocked pre t s'' hk ht ho hq h' => cases hr

end CocotbBus
