import Verif.Proof.Cancel
import Verif.Proof.OpbCall

namespace CocotbBus
open Spec Coro

/-- an OPB bus with 8 address and data bits -/
def exOpb : OpbCfg := { addrW := 8, dataW := 8 }
def exOpbOut : OpbOut := { abus := natToBits 8 0, select := .zero, rnw := .zero, be := natToBits 4 0, dbusOut := natToBits 8 0, dbusIn := natToBits 8 0, busy := false }
/-- a peripheral that acknowledges in the given cycles -/
def exOpbIn (acks : List Bool) : List OpbIn := acks.map fun a => { xferAck := if a then .one else .zero, toutSup := .zero, dbusOut := natToBits 8 0x42 }
def exOpbSim (acks : List Bool) : Sim OpbIn OpbOut :=
  { phase := .mid, out := exOpbOut, prev := {}, cur := { dbusOut := natToBits 8 0 }, rest := exOpbIn acks }

/-! ### C72 -/

/-- C72: a read raises OPBException, `n` cycles after its request, exactly when the first run of 16 cycles with toutSup low ends with
the `n`-th of the cycles the master looks at and xferAck has not been seen before. The first cycle of the request is not one of
these cycles, see `C72_violated`. -/
theorem C72_read (c : OpbCfg) (a : Nat) (sync : Bool) (ha : a < 2 ^ c.addrW) (hbe : 15 < 2 ^ c.beW) (s : Sim OpbIn OpbOut)
    (hf : s.out.busy = false) (p : OpbIn) (cs : List OpbIn) (hr : AtRequest sync s p cs) (hb : Binary p.xferAck)
    (hbs : ∀ i ∈ cs, Binary i.xferAck ∧ Binary i.toutSup) (n : Nat) :
    ((opbRead c a sync s).1.length = (if sync then 1 else 0) + n ∧ ∃ s', (opbRead c a sync s).2 = .err .opbException s') ↔
      TimesOutAt p.xferAck cs n :=
  (opbRead_end c a sync ha hbe s hf p cs hr hb hbs).timeout_iff (by
    intro e s' h h'
    split at h
    · obtain ⟨s'', h1, _⟩ := h; rw [h1] at h'; cases h'
    · obtain ⟨s'', h1, _⟩ := h; rw [h1] at h'; cases h') n

/-- C72: the same for a write. -/
theorem C72_write (c : OpbCfg) (a v : Nat) (sync : Bool) (ha : a < 2 ^ c.addrW) (hv : v < 2 ^ c.dataW) (hbe : 15 < 2 ^ c.beW) (s : Sim OpbIn OpbOut)
    (hf : s.out.busy = false) (p : OpbIn) (cs : List OpbIn) (hr : AtRequest sync s p cs) (hb : Binary p.xferAck)
    (hbs : ∀ i ∈ cs, Binary i.xferAck ∧ Binary i.toutSup) (n : Nat) :
    ((opbWrite c a v sync s).1.length = (if sync then 1 else 0) + n ∧ ∃ s', (opbWrite c a v sync s).2 = .err .opbException s') ↔
      TimesOutAt p.xferAck cs n :=
  (opbWrite_end c a v sync ha hv hbe s hf p cs hr hb hbs).timeout_iff (by
    intro e s' ⟨s'', h1, _⟩ h'
    rw [h1] at h'; cases h') n

-- sixteen cycles without an answer: the call raises after the sync edge and 16 more
example : AtRequest true (exOpbSim (List.replicate 20 false)) { dbusOut := natToBits 8 0 } (exOpbIn (List.replicate 19 false)) ∧
    (opbRead exOpb 5 true (exOpbSim (List.replicate 20 false))).1.length = 17 ∧
    (match (opbRead exOpb 5 true (exOpbSim (List.replicate 20 false))).2 with
      | .err e _ => e
      | _ => .other 0) = .opbException := by
  refine ⟨⟨rfl, _, rfl⟩, ?_⟩
  constructor <;> decide +kernel

/-- No time-out comes before the sixteenth cycle. -/
theorem C72_not_early (a₀ : Logic) (cs : List OpbIn) (n : Nat) (h : TimesOutAt a₀ cs n) : 16 ≤ n := h.1.1

/-- A quiet peripheral: without toutSup and xferAck the time-out is in the sixteenth cycle. -/
theorem C72_quiet (cs : List OpbIn) (hl : 16 ≤ cs.length) (h : ∀ i ∈ cs.take 16, i.toutSup = .zero ∧ i.xferAck = .zero) : TimesOutAt .zero cs 16 := by
  have hget : ∀ k, k < 16 → ∃ i, cs[k]? = some i ∧ i.toutSup = .zero ∧ i.xferAck = .zero := by
    intro k hk
    have hk' : k < cs.length := by omega
    refine ⟨cs[k], List.getElem?_eq_getElem hk', h _ ?_⟩
    rw [List.mem_take_iff_getElem]
    exact ⟨k, by omega, rfl⟩
  refine ⟨⟨by omega, fun k _ hk => ?_⟩, fun m hm hq => ?_, fun k hk => ?_⟩
  · obtain ⟨i, hi, ht, _⟩ := hget k hk
    simp [hi, ht]
  · have := hq.1; omega
  · cases k with
    | zero => rfl
    | succ k =>
      obtain ⟨i, hi, _, ha⟩ := hget k (by omega)
      simp [hi, ha]

/-- C72 is false of the code as stated: an acknowledge in the first cycle of the request is not seen, and a call that has been
acknowledged raises OPBException. The witness acknowledges in the first cycle with select = 1 only. -/
theorem C72_violated : ∃ s : Sim OpbIn OpbOut, s.out.busy = false ∧ (∀ i ∈ s.rest, Binary i.xferAck ∧ Binary i.toutSup) ∧
    (∃ r ∈ (opbRead exOpb 5 true s).1, r.1.select = .one ∧ r.2.xferAck = .one) ∧
    ∃ s', (opbRead exOpb 5 true s).2 = .err .opbException s' := by
  refine ⟨exOpbSim (true :: List.replicate 16 false), rfl, ?_, ?_⟩
  · unfold Binary; decide +kernel
  · have h : (match opbRead exOpb 5 true (exOpbSim (true :: List.replicate 16 false)) with
        | (t, .err .opbException _) => t.any (fun r => r.1.select == .one && r.2.xferAck == .one)
        | _ => false) = true := by decide +kernel
    generalize opbRead exOpb 5 true (exOpbSim (true :: List.replicate 16 false)) = X at h
    obtain ⟨t, e⟩ := X
    split at h
    · rename_i t' s' heq
      cases heq
      obtain ⟨r, hr, hr'⟩ := List.any_eq_true.1 h
      simp at hr'
      exact ⟨⟨r, hr, hr'⟩, _, rfl⟩
    · cases h

/-! ### C73 -/

/-- C73 is false of the code: when the acknowledge comes in a cycle after the request, within the time-out, the call never returns:
it raises on the attempt to deassert select in the ReadOnly phase (or, for a read, because DBus_out has X or Z), with select still 1
and the lock still taken. -/
theorem C73_acknowledged (c : OpbCfg) (a v : Nat) (sync : Bool) (ha : a < 2 ^ c.addrW) (hv : v < 2 ^ c.dataW) (hbe : 15 < 2 ^ c.beW)
    (s : Sim OpbIn OpbOut) (hf : s.out.busy = false) (p : OpbIn) (cs : List OpbIn) (hr : AtRequest sync s p cs) (hb : Binary p.xferAck)
    (hbs : ∀ i ∈ cs, Binary i.xferAck ∧ Binary i.toutSup) (n : Nat) (hn : 0 < n) (hack : AckedAt p.xferAck cs n) :
    (∃ e s', (opbRead c a sync s).2 = .err e s' ∧ s'.out.select = .one ∧ s'.out.busy = true ∧
      ((∀ i ∈ cs, isResolvable i.dbusOut = true) → e = .readOnlyWrite)) ∧
    (∃ s', (opbWrite c a v sync s).2 = .err .readOnlyWrite s' ∧ s'.out.select = .one ∧ s'.out.busy = true) := by
  constructor
  · obtain ⟨e, s', h1, _, h3, h4⟩ := (opbRead_end c a sync ha hbe s hf p cs hr hb hbs).late_of n hn hack
    refine ⟨e, s', h1, by rw [h3], by rw [h3], fun hres => ?_⟩
    rcases h4 with h | ⟨_, i, hi, h⟩
    · exact h
    · rw [hres i hi] at h; cases h
  · obtain ⟨pre, s0, h1, h2, h3, h4, h5, h6, h7⟩ := opbWrite_call c a v sync ha hv hbe s hf p cs hr
    rw [h7]
    subst h3 h4
    have hw := opbLoop_spec s0.rest 0 s0 rfl (by omega) hb hbs
    -- the write itself cannot meet a ValueError
    have hrun : (opbWait >>= fun _ => opbWriteEnd) s0 = ((loop opbBody 0 s0).andThen fun _ => opbWriteEnd) := rfl
    rw [hrun]
    generalize loop opbBody 0 s0 = X at hw
    cases hw with
    | timeout n' t s' ht hn hout hph hq hq' ha =>
      simp only [List.replicate_zero, List.nil_append, Nat.zero_add] at hq hq'
      exact (timesOut_not_acked _ _ _ _ ⟨hq, hq', ha⟩ hack).elim
    | acked n' t s' ht hn hout hph hq' ha hat =>
      simp only [List.replicate_zero, List.nil_append, Nat.zero_add] at hq'
      have := acked_unique _ _ _ _ ⟨hq', ha, hat⟩ hack
      subst this
      rcases hph with ⟨rfl, _⟩ | ⟨_, hro, _⟩
      · omega
      · simp only [andThen_ok, opbWriteEnd_ro s' hro]
        exact ⟨s', rfl, by rw [hout, h6], by rw [hout, h6]⟩
    | blocked t s' ht hout hq' ha =>
      have := ha n (by have := acked_len _ _ _ hack; omega)
      rw [hack.2.2] at this; cases this

-- an acknowledge in the third cycle after the request
example : AtRequest true (exOpbSim [false, false, false, true]) { dbusOut := natToBits 8 0 } (exOpbIn [false, false, true]) ∧
    AckedAt .zero (exOpbIn [false, false, true]) 3 ∧
    (match (opbRead exOpb 5 true (exOpbSim [false, false, false, true])).2 with
      | .err e s => (e, s.out.select)
      | _ => (.other 0, .zero)) = (.readOnlyWrite, .one) := by
  refine ⟨⟨rfl, _, rfl⟩, ⟨fun m hm h => by have := h.1; omega, fun k hk => ?_, rfl⟩, by decide +kernel⟩
  have : k = 0 ∨ k = 1 ∨ k = 2 := by omega
  rcases this with rfl | rfl | rfl <;> rfl

/-- C73 is false of the code: a concrete case. -/
theorem C73_violated : ∃ (s : Sim OpbIn OpbOut) (p : OpbIn) (cs : List OpbIn), s.out.busy = false ∧ AtRequest true s p cs ∧ AckedAt p.xferAck cs 3 ∧
    ∀ d s', (opbRead exOpb 5 true s).2 ≠ .ok d s' := by
  have hk : AckedAt .zero (exOpbIn [false, false, true]) 3 := by
    refine ⟨fun m hm h => by have := h.1; omega, fun k hk => ?_, rfl⟩
    have : k = 0 ∨ k = 1 ∨ k = 2 := by omega
    rcases this with rfl | rfl | rfl <;> rfl
  refine ⟨exOpbSim [false, false, false, true], { dbusOut := natToBits 8 0 }, exOpbIn [false, false, true], rfl, ⟨rfl, _, rfl⟩, hk, fun d s' h => ?_⟩
  obtain ⟨⟨e, s'', h1, _⟩, _⟩ := C73_acknowledged exOpb 5 0 true (by decide) (by decide) (by decide) (exOpbSim [false, false, false, true]) rfl
    { dbusOut := natToBits 8 0 } (exOpbIn [false, false, true]) ⟨rfl, _, rfl⟩ (.inl rfl) (by unfold Binary; decide +kernel) 3 (by omega) hk
  rw [h1] at h; cases h

/-- C73, proved part: if xferAck is already high when the request is made, the call returns at once, with the value of DBus_out at
that moment, select low and the lock free. Missing: every other acknowledge, see `C73_acknowledged`. -/
theorem C73_immediate_partial (c : OpbCfg) (a v : Nat) (sync : Bool) (ha : a < 2 ^ c.addrW) (hv : v < 2 ^ c.dataW) (hbe : 15 < 2 ^ c.beW)
    (s : Sim OpbIn OpbOut) (hf : s.out.busy = false) (p : OpbIn) (cs : List OpbIn) (hr : AtRequest sync s p cs) (hack : p.xferAck = .one)
    (hbs : ∀ i ∈ cs, Binary i.xferAck ∧ Binary i.toutSup) :
    (isResolvable p.dbusOut = true → ∃ s', (opbRead c a sync s).2 = .ok (bitsToNat p.dbusOut) s' ∧ s'.out.select = .zero ∧ s'.out.busy = false) ∧
    (∃ s', (opbWrite c a v sync s).2 = .ok () s' ∧ s'.out.select = .zero ∧ s'.out.busy = false) := by
  have h0 : AckedAt p.xferAck cs 0 := ⟨fun m hm h => by have := h.1; omega, fun k hk => by omega, by rw [hack]; rfl⟩
  constructor
  · intro hres
    have := ((opbRead_end c a sync ha hbe s hf p cs hr (.inr hack) hbs).now_of h0).2
    simpa [hres] using this
  · exact ((opbWrite_end c a v sync ha hv hbe s hf p cs hr (.inr hack) hbs).now_of h0).2

example : ∃ s', (opbRead exOpb 5 true { exOpbSim [true] with cur := { xferAck := .one, dbusOut := natToBits 8 7 } }).2 = .ok 7 s' :=
  ⟨_, rfl⟩

/-- Even then no transfer takes place: select is never 1 at a clock edge, so the peripheral never sees a request. A call that returns
has not been seen by the peripheral. -/
theorem C73_no_transfer (c : OpbCfg) (a : Nat) (sync : Bool) (ha : a < 2 ^ c.addrW) (hbe : 15 < 2 ^ c.beW) (s : Sim OpbIn OpbOut)
    (hf : s.out.busy = false) (h0 : s.out.select = .zero) (p : OpbIn) (cs : List OpbIn) (hr : AtRequest sync s p cs) (hb : Binary p.xferAck)
    (hbs : ∀ i ∈ cs, Binary i.xferAck ∧ Binary i.toutSup) (d : Nat) (s' : Sim OpbIn OpbOut) (h : (opbRead c a sync s).2 = .ok d s') :
    p.xferAck = .one ∧ ∀ r ∈ (opbRead c a sync s).1, r.1.select = .zero := by
  have hend := opbRead_end c a sync ha hbe s hf p cs hr hb hbs
  have hack := hend.ok_now d s' h
  have hp1 : p.xferAck = .one := by have := hack.2.2; simpa using this
  refine ⟨hp1, ?_⟩
  obtain ⟨pre, s0, h1, h2, h3, h4, h5, h6, h7⟩ := opbRead_call c a sync ha hbe s hf p cs hr
  have hlen := (hend.now_of hack).1
  rw [h7] at hlen ⊢
  intro r hr
  have : ((opbWait >>= fun _ => opbReadEnd) s0).1 = [] := by
    simp at hlen
    apply List.eq_nil_of_length_eq_zero; omega
  simp only [this, List.append_nil] at hr
  rw [h2 r hr]; exact h0

/-- C73, proved part: while a call waits, the request is held: from the request on, select, RNW, the address, the byte enables and
(for a write) the data are constant in every cycle, whatever the peripheral does. -/
theorem C73_held_partial (c : OpbCfg) (a v : Nat) (sync : Bool) (ha : a < 2 ^ c.addrW) (hv : v < 2 ^ c.dataW) (hbe : 15 < 2 ^ c.beW)
    (s : Sim OpbIn OpbOut) (hf : s.out.busy = false) (p : OpbIn) (cs : List OpbIn) (hr : AtRequest sync s p cs) (hb : Binary p.xferAck)
    (hbs : ∀ i ∈ cs, Binary i.xferAck ∧ Binary i.toutSup) :
    (∀ r ∈ (opbRead c a sync s).1.drop (if sync then 1 else 0), Requesting c a .one r.1) ∧
    (∀ r ∈ (opbWrite c a v sync s).1.drop (if sync then 1 else 0), Requesting c a .zero r.1 ∧ bitsToNat r.1.dbusOut = v ∧ r.1.dbusOut.length = c.dataW) := by
  constructor
  · intro r hr'
    rw [(opbRead_end c a sync ha hbe s hf p cs hr hb hbs).held r hr']
    exact ⟨rfl, rfl, (by rw [bitsToNat_natToBits, Nat.mod_eq_of_lt ha]), natToBits_length _ _, (by rw [bitsToNat_natToBits, Nat.mod_eq_of_lt hbe]), rfl⟩
  · intro r hr'
    rw [(opbWrite_end c a v sync ha hv hbe s hf p cs hr hb hbs).held r hr']
    exact ⟨⟨rfl, rfl, (by rw [bitsToNat_natToBits, Nat.mod_eq_of_lt ha]), natToBits_length _ _, (by rw [bitsToNat_natToBits, Nat.mod_eq_of_lt hbe]), rfl⟩, (by rw [bitsToNat_natToBits, Nat.mod_eq_of_lt hv]), natToBits_length _ _⟩

example : ((opbWrite exOpb 5 9 true (exOpbSim [false, false, false, true])).1.drop 1).length = 3 := by decide +kernel

/-! ### C74 -/

/-- C74 is false of the code: whenever a call raises after its request, in particular with OPBException, select stays 1 and the lock
stays taken ... -/
theorem C74_request_left (c : OpbCfg) (a v : Nat) (sync : Bool) (ha : a < 2 ^ c.addrW) (hv : v < 2 ^ c.dataW) (hbe : 15 < 2 ^ c.beW)
    (s : Sim OpbIn OpbOut) (hf : s.out.busy = false) (p : OpbIn) (cs : List OpbIn) (hr : AtRequest sync s p cs) (hb : Binary p.xferAck)
    (hbs : ∀ i ∈ cs, Binary i.xferAck ∧ Binary i.toutSup) (e : PyErr) (s' : Sim OpbIn OpbOut)
    (h : (opbRead c a sync s).2 = .err e s' ∨ (opbWrite c a v sync s).2 = .err e s') : s'.out.select = .one ∧ s'.out.busy = true := by
  rcases h with h | h
  · refine (opbRead_end c a sync ha hbe s hf p cs hr hb hbs).err_out ?_ rfl rfl e s' h
    intro x e' s'' hx hx'
    split at hx
    · obtain ⟨_, h1, _⟩ := hx; rw [h1] at hx'; cases hx'
    · obtain ⟨_, h1, h2⟩ := hx; rw [h1] at hx'; cases hx'; exact h2
  · refine (opbWrite_end c a v sync ha hv hbe s hf p cs hr hb hbs).err_out ?_ rfl rfl e s' h
    rintro x e' s'' ⟨_, h1, _⟩ hx'
    rw [h1] at hx'; cases hx'

/-- ... and whatever it raises at whatever point (an address or a value that does not fit, X on xferAck, an access in the ReadOnly phase), the lock stays taken ... -/
theorem C74_every_error (c : OpbCfg) (a v : Nat) (sync : Bool) (s s' : Sim OpbIn OpbOut) (e : PyErr)
    (h : (opbRead c a sync s).2 = .err e s' ∨ (opbWrite c a v sync s).2 = .err e s') : s'.out.busy = true := by
  rcases h with h | h
  · have := opbRead_lock c a sync s (by rw [h]; rfl)
    rwa [h] at this
  · have := opbWrite_lock c a v sync s (by rw [h]; rfl)
    rwa [h] at this

-- an address that does not fit, and X on xferAck
example : (match (opbWrite exOpb 256 0 true (exOpbSim [false, false])).2, (opbRead exOpb 5 false ⟨.mid, exOpbOut, {}, { xferAck := .x }, []⟩).2 with
    | .err e s, .err e' s' => e == .overflowError && e' == .valueError && s.out.busy && s'.out.busy
    | _, _ => false) = true := by decide +kernel

/-- ... and every later operation waits for ever, on every schedule, with select still 1. -/
theorem C74_stuck (c : OpbCfg) (a v : Nat) (sync : Bool) (s : Sim OpbIn OpbOut) (h : s.out.busy = true) :
    opbRead c a sync s = ([], .blocked s) ∧ opbWrite c a v sync s = ([], .blocked s) :=
  ⟨opbAcquire_busy _ s h, opbAcquire_busy _ s h⟩

/-- C74 is false of the code: a concrete case. -/
theorem C74_violated : ∃ (s s' : Sim OpbIn OpbOut), s.out.busy = false ∧ (opbRead exOpb 5 true s).2 = .err .opbException s' ∧ s'.out.select = .one ∧
    ∀ c a v sync, opbRead c a sync s' = ([], .blocked s') ∧ opbWrite c a v sync s' = ([], .blocked s') := by
  have hx : TimesOutAt .zero (exOpbIn (List.replicate 19 false)) 16 := C72_quiet _ (by decide) (by decide +kernel)
  have hb : ∀ i ∈ exOpbIn (List.replicate 19 false), Binary i.xferAck ∧ Binary i.toutSup := by unfold Binary; decide +kernel
  have hr : AtRequest true (exOpbSim (List.replicate 20 false)) { dbusOut := natToBits 8 0 } (exOpbIn (List.replicate 19 false)) := ⟨rfl, _, rfl⟩
  obtain ⟨_, s', hs'⟩ := (C72_read exOpb 5 true (by decide) (by decide) (exOpbSim (List.replicate 20 false)) rfl _ _ hr (.inl rfl) hb 16).2 hx
  have h2 := C74_request_left exOpb 5 0 true (by decide) (by decide) (by decide) (exOpbSim (List.replicate 20 false)) rfl _ _ hr (.inl rfl) hb _ _ (.inl hs')
  exact ⟨_, s', rfl, hs', h2.1, fun c a v sync => C74_stuck c a v sync s' h2.2⟩

/-- C74, proved part: an operation that returns leaves select low and the lock free. Missing: operations that raise, i.e. all that are
seen by a peripheral. -/
theorem C74_completed_partial (c : OpbCfg) (a v : Nat) (sync : Bool) (ha : a < 2 ^ c.addrW) (hv : v < 2 ^ c.dataW) (hbe : 15 < 2 ^ c.beW)
    (s : Sim OpbIn OpbOut) (hf : s.out.busy = false) (p : OpbIn) (cs : List OpbIn) (hr : AtRequest sync s p cs) (hb : Binary p.xferAck)
    (hbs : ∀ i ∈ cs, Binary i.xferAck ∧ Binary i.toutSup) (s' : Sim OpbIn OpbOut)
    (h : (∃ d, (opbRead c a sync s).2 = .ok d s') ∨ (opbWrite c a v sync s).2 = .ok () s') : s'.out.select = .zero ∧ s'.out.busy = false := by
  rcases h with ⟨d, h⟩ | h
  · have hend := opbRead_end c a sync ha hbe s hf p cs hr hb hbs
    have := (hend.now_of (hend.ok_now d s' h)).2
    rw [h] at this
    split at this
    · obtain ⟨_, h1, h2⟩ := this; cases h1; exact h2
    · obtain ⟨_, h1, _⟩ := this; cases h1
  · have hend := opbWrite_end c a v sync ha hv hbe s hf p cs hr hb hbs
    have := (hend.now_of (hend.ok_now () s' h)).2
    rw [h] at this
    obtain ⟨_, h1, h2⟩ := this; cases h1; exact h2

/-! ### C82 -/

theorem opb_keeps_body (P : OpbOut → Prop) (n : Nat) : Keeps P (opbBody n) := by
  refine Keeps.bind Keeps.inp fun i => Keeps.bind (Keeps.ofExcept _) fun a => Keeps.ite (Keeps.pure _) ?_
  refine Keeps.bind Keeps.awaitEdge fun _ => Keeps.bind (Keeps.readOnly _) fun _ => Keeps.bind Keeps.inp fun j => Keeps.bind (Keeps.ofExcept _) fun t => ?_
  exact Keeps.ite (Keeps.raise _) (Keeps.pure _)

/-- C82 is false of the code: a write never drives DBus_in, the data input of the peripheral: on every schedule DBus_in keeps the value
it had before the call. The value goes to DBus_out, the signal a read samples. -/
theorem C82_not_driven (c : OpbCfg) (a v : Nat) (sync : Bool) (s : Sim OpbIn OpbOut) :
    (∀ r ∈ (opbWrite c a v sync s).1, r.1.dbusIn = s.out.dbusIn) ∧ (opbWrite c a v sync s).2.sim.out.dbusIn = s.out.dbusIn := by
  have hpy : ∀ (f : OpbOut → OpbOut), (∀ o, (f o).dbusIn = o.dbusIn) → Keeps (I := OpbIn) (fun o : OpbOut => o.dbusIn = s.out.dbusIn) (setPy f) := by
    intro f hf s' hs'
    exact ⟨by simp [setPy], by simp only [setPy, End.sim, hf]; exact hs'⟩
  have hw : ∀ (w n : Nat) (f : LogicArray → OpbOut → OpbOut), (∀ v o, (f v o).dbusIn = o.dbusIn) → Keeps (I := OpbIn) (fun o : OpbOut => o.dbusIn = s.out.dbusIn) (writeInt w n f) := by
    intro w n f hf
    exact Keeps.ite (Keeps.write _ (fun o ho => by rw [hf]; exact ho)) (Keeps.raise _)
  have hacq : Keeps (I := OpbIn) (fun o : OpbOut => o.dbusIn = s.out.dbusIn) opbAcquire := by
    intro s' hs'
    unfold opbAcquire
    rw [bind_getOut]
    cases hb : s'.out.busy with
    | true => exact ⟨(by intro r hr; cases hr), hs'⟩
    | false => exact ⟨(by intro r hr; cases hr), hs'⟩
  have : Keeps (I := OpbIn) (fun o : OpbOut => o.dbusIn = s.out.dbusIn) (opbWrite c a v sync) :=
    Keeps.bind hacq fun _ => Keeps.bind (Keeps.when _ Keeps.awaitEdge) fun _ => Keeps.bind (hw _ _ _ (fun _ _ => rfl)) fun _ =>
      Keeps.bind (Keeps.write _ (fun _ h => h)) fun _ => Keeps.bind (Keeps.write _ (fun _ h => h)) fun _ => Keeps.bind (hw _ _ _ (fun _ _ => rfl)) fun _ =>
      Keeps.bind (hw _ _ _ (fun _ _ => rfl)) fun _ => Keeps.bind (Keeps.loop _ (opb_keeps_body _) _) fun _ => Keeps.bind (Keeps.write _ (fun _ h => h)) fun _ =>
      hpy _ (fun _ => rfl)
  exact this s rfl

/-- C82 is false of the code: writing 9 to a peripheral whose data input is 0 shows it the data 0. -/
theorem C82_violated : ∃ s : Sim OpbIn OpbOut, (∃ r ∈ (opbWrite exOpb 5 9 true s).1, Requesting exOpb 5 .zero r.1) ∧
    ∀ r ∈ (opbWrite exOpb 5 9 true s).1, bitsToNat r.1.dbusIn ≠ 9 := by
  refine ⟨exOpbSim [false, false, false], ?_, fun r hr => ?_⟩
  · unfold Requesting; decide +kernel
  · rw [(C82_not_driven exOpb 5 9 true _).1 r hr]; decide

end CocotbBus
