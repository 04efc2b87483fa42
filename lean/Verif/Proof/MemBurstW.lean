import Verif.Proof.MemBurst

/-! # Write bursts of `AvalonMemory` -/

namespace CocotbBus
open Spec Coro

/-! ### Storing words -/

theorem byteOf_toNat (d i : Nat) : (byteOf d i).toNat = (d >>> (i * 8)) &&& 0xFF := by
  rw [byteOf, BitVec.toNat_ofNat, Nat.shiftRight_eq_div_pow, show (0xFF : Nat) = 2 ^ 8 - 1 from rfl, Nat.and_two_pow_sub_one_eq_mod, pow256, Nat.mul_comm]

theorem memScatter_eq (data base n : Nat) : ∀ (i : Nat) (mem : Nat → Option Nat) (a : Nat),
    memScatter data base n i mem a = if base + i ≤ a ∧ a < base + i + n then some (byteOf data (a - base)).toNat else mem a := by
  induction n with
  | zero => intro i mem a; rw [memScatter, if_neg (by omega)]
  | succ n ih =>
    intro i mem a
    rw [memScatter, ih]
    by_cases h1 : base + (i + 1) ≤ a ∧ a < base + (i + 1) + n
    · rw [if_pos h1, if_pos (by omega)]
    · rw [if_neg h1, memSet]
      by_cases h2 : a = base + i
      · rw [if_pos h2, if_pos (by omega), byteOf_toNat, show a - base = i by omega]
      · rw [if_neg h2, if_neg (by omega)]

theorem storeWords_nil (c : MemCfg) (mem : Nat → Option Nat) (a : Nat) : storeWords c mem a [] = mem := by
  funext b
  rw [storeWords, if_neg (by simp)]

theorem storeWords_cons (c : MemCfg) (hc : 0 < c.width / 8) (mem : Nat → Option Nat) (addr d : Nat) (ws : List Nat) :
    storeWords c (memScatter d addr c.size 0 mem) (addr + c.size) ws = storeWords c mem addr (d :: ws) := by
  funext a
  simp only [storeWords, MemCfg.size, memScatter_eq, List.length_cons, Nat.add_zero]
  have hmul : (ws.length + 1) * (c.width / 8) = ws.length * (c.width / 8) + c.width / 8 := Nat.succ_mul _ _
  generalize c.width / 8 = w at *
  generalize hl : ws.length * w = L at *
  by_cases h1 : addr + w ≤ a ∧ a < addr + w + L
  · rw [if_pos h1, if_pos (by omega)]
    have e : a - addr = (a - (addr + w)) + w := by omega
    rw [e, Nat.add_div_right _ hc, Nat.add_mod_right]
    rfl
  · rw [if_neg h1]
    by_cases h2 : addr ≤ a ∧ a < addr + w
    · rw [if_pos h2, if_pos (by omega), Nat.div_eq_of_lt (by omega), Nat.mod_eq_of_lt (by omega)]
      rfl
    · rw [if_neg h2, if_neg (by omega)]

/-! ### The outcome of a burst -/

/-- after the last of `b` beats there are only cycles with waitrequest -/
def EndsWait (b : Nat) (t : List (MemOut × MemIn)) : Prop :=
  ∃ a e, t = a ++ e ∧ (∀ q ∈ e, q.1.waitrequest = .one) ∧ (b = 0 → a = []) ∧ (0 < b → ∃ a' q, a = a' ++ [q] ∧ acceptedBeats [q] ≠ [])

theorem EndsWait.idle {b : Nat} {t : List (MemOut × MemIn)} (h : EndsWait b t) (q : MemOut × MemIn) (hq : b = 0 → q.1.waitrequest = .one) : EndsWait b (q :: t) := by
  obtain ⟨a, e, rfl, h1, h2, h3⟩ := h
  by_cases hb : b = 0
  · refine ⟨[], q :: (a ++ e), rfl, ?_, fun _ => rfl, fun h => by omega⟩
    rw [h2 hb, List.nil_append]
    intro q' hq'
    rcases List.mem_cons.1 hq' with rfl | h
    · exact hq hb
    · exact h1 _ h
  · obtain ⟨a', q', rfl, h4⟩ := h3 (by omega)
    exact ⟨q :: (a' ++ [q']), e, rfl, h1, fun h => absurd h hb, fun _ => ⟨q :: a', q', rfl, h4⟩⟩

theorem EndsWait.beat {b : Nat} {t : List (MemOut × MemIn)} (h : EndsWait b t) (q : MemOut × MemIn) (hq : acceptedBeats [q] ≠ []) : EndsWait (b + 1) (q :: t) := by
  obtain ⟨a, e, rfl, h1, h2, h3⟩ := h
  by_cases hb : b = 0
  · exact ⟨[q], e, by rw [h2 hb]; rfl, h1, fun h => by omega, fun _ => ⟨[], q, rfl, hq⟩⟩
  · obtain ⟨a', q', rfl, h4⟩ := h3 (by omega)
    exact ⟨q :: (a' ++ [q']), e, rfl, h1, fun h => by omega, fun _ => ⟨q :: a', q', rfl, h4⟩⟩

/-- the outcome of (the rest of) a write burst of `b` beats from `addr` on -/
def Outcome (c : MemCfg) (gaps : Bool) (b : Nat) (mem : Nat → Option Nat) (addr : Nat) (r : Res MemIn MemOut Unit) : Prop :=
  MasterKeeps gaps b (cyclesOf r) →
    (∀ e s', r.2 ≠ .err e s') ∧
    (∀ a s', r.2 = .ok a s' → (acceptedBeats r.1).length = b ∧ s'.out.mem = storeWords c mem addr (acceptedBeats r.1) ∧ s'.phase ≠ .ro ∧ EndsWait b r.1) ∧
    (∀ s', r.2 = .blocked s' → (acceptedBeats (cyclesOf r)).length ≤ b ∧ s'.out.mem = storeWords c mem addr (acceptedBeats (cyclesOf r)) ∧ s'.rest = [] ∧
      ((acceptedBeats (cyclesOf r)).length = b → EndsWait b (cyclesOf r)))

theorem cyclesOf_nil (k : Unit → M MemIn MemOut Unit) (s : Sim MemIn MemOut) (h : s.rest = []) : cyclesOf ((awaitEdge >>= k) s) = [(s.out, s.cur)] := by
  rw [bind_awaitEdge_nil _ _ h]; rfl

theorem cyclesOf_cons (k : Unit → M MemIn MemOut Unit) (s : Sim MemIn MemOut) (i : MemIn) (r : List MemIn) (h : s.rest = i :: r) :
    cyclesOf ((awaitEdge >>= k) s) = (s.out, s.cur) :: cyclesOf (k () ⟨.edge, s.out, s.cur, i, r⟩) := by
  rw [bind_awaitEdge_cons _ _ i r h]; rfl

theorem acceptedBeats_cons (q : MemOut × MemIn) (l : List (MemOut × MemIn)) : acceptedBeats (q :: l) = acceptedBeats [q] ++ acceptedBeats l := by
  unfold acceptedBeats
  rw [← List.map_append, ← List.filter_append]; rfl

/-- the first cycle of a result that starts in `s` -/
def StartsWith (r : Res MemIn MemOut Unit) (i : MemIn) : Prop := ∃ o l, cyclesOf r = (o, i) :: l

theorem startsWith_of_good {x : M MemIn MemOut Unit} (hx : Good x) (s : Sim MemIn MemOut) : StartsWith (x s) s.cur := by
  have := (hx s).1
  unfold StartsWith cyclesOf
  cases ht : (x s).1 with
  | nil =>
    rw [ht] at this
    simp only [List.map_nil, List.nil_append, List.cons.injEq] at this
    exact ⟨_, [], by rw [List.nil_append, this.1]⟩
  | cons q t =>
    rw [ht] at this
    simp only [List.map_cons, List.cons_append, List.cons.injEq] at this
    exact ⟨q.1, t ++ [((x s).2.sim.out, (x s).2.sim.cur)], by rw [this.1]; rfl⟩

/-- a clock edge with no beat accepted -/
theorem outcome_edge_idle {c : MemCfg} {gaps : Bool} {b : Nat} {mem : Nat → Option Nat} {addr : Nat} {k : Unit → M MemIn MemOut Unit} {s : Sim MemIn MemOut}
    (hk : ∀ i r, s.rest = i :: r → StartsWith (k () ⟨.edge, s.out, s.cur, i, r⟩) i)
    (hacc : acceptedBeats [(s.out, s.cur)] = []) (hone : b = 0 → s.out.waitrequest = .one) (hmem : s.out.mem = mem)
    (h : ∀ i r, s.rest = i :: r → (0 < b → s.cur.write = .one → (gaps = false ∨ s.out.waitrequest = .one) → i.write = .one) →
      Outcome c gaps b mem addr (k () ⟨.edge, s.out, s.cur, i, r⟩)) :
    Outcome c gaps b mem addr ((awaitEdge >>= k) s) := by
  intro hmk
  cases hr : s.rest with
  | nil =>
    rw [cyclesOf_nil _ _ hr, hacc, storeWords_nil, bind_awaitEdge_nil _ _ hr]
    refine ⟨fun _ _ h => (by cases h), fun _ _ h => (by cases h), fun s' h => ?_⟩
    simp only [End.blocked.injEq] at h
    subst h
    refine ⟨Nat.zero_le _, hmem, hr, fun hb => ?_⟩
    exact ⟨[], [(s.out, s.cur)], rfl, by simpa using hone hb.symm, fun _ => rfl, fun h => by rw [← hb] at h; simp at h⟩
  | cons i r =>
    rw [cyclesOf_cons _ _ i r hr] at hmk ⊢
    rw [bind_awaitEdge_cons _ _ i r hr]
    obtain ⟨o, l, hl⟩ := hk i r hr
    rw [hl, MasterKeeps, hacc, List.length_nil, Nat.sub_zero] at hmk
    obtain ⟨h1, h2, h3⟩ := h i r hr hmk.1 (by rw [hl]; exact hmk.2)
    refine ⟨h1, ?_, ?_⟩
    · intro a s' he
      obtain ⟨g1, g2, g3, g4⟩ := h2 a s' he
      show _ ∧ _
      rw [acceptedBeats_cons, hacc, List.nil_append]
      exact ⟨g1, g2, g3, g4.idle _ hone⟩
    · intro s' he
      obtain ⟨g1, g2, g3, g4⟩ := h3 s' he
      rw [acceptedBeats_cons, hacc, List.nil_append]
      exact ⟨g1, g2, g3, fun hb => (g4 hb).idle _ hone⟩

/-- a clock edge with a beat accepted, the data being in memory already -/
theorem outcome_edge_beat {c : MemCfg} (hc : 0 < c.width / 8) {gaps : Bool} {b : Nat} {mem : Nat → Option Nat} {addr : Nat} {k : Unit → M MemIn MemOut Unit} {s : Sim MemIn MemOut}
    (hk : ∀ i r, s.rest = i :: r → StartsWith (k () ⟨.edge, s.out, s.cur, i, r⟩) i)
    (hacc : acceptedBeats [(s.out, s.cur)] = [bitsToNat s.cur.writedata]) (hmem : s.out.mem = memScatter (bitsToNat s.cur.writedata) addr c.size 0 mem)
    (h : ∀ i r, s.rest = i :: r → (0 < b → s.cur.write = .one → (gaps = false ∨ s.out.waitrequest = .one) → i.write = .one) →
      Outcome c gaps b s.out.mem (addr + c.size) (k () ⟨.edge, s.out, s.cur, i, r⟩)) :
    Outcome c gaps (b + 1) mem addr ((awaitEdge >>= k) s) := by
  intro hmk
  cases hr : s.rest with
  | nil =>
    rw [cyclesOf_nil _ _ hr, hacc, bind_awaitEdge_nil _ _ hr]
    refine ⟨fun _ _ h => (by cases h), fun _ _ h => (by cases h), fun s' h => ?_⟩
    simp only [End.blocked.injEq] at h
    subst h
    refine ⟨by simp, ?_, hr, fun hb => ?_⟩
    · rw [hmem, ← storeWords_cons c hc, storeWords_nil]
    · exact ⟨[(s.out, s.cur)], [], rfl, by simp, fun h => by omega, fun _ => ⟨[], _, rfl, by rw [hacc]; simp⟩⟩
  | cons i r =>
    rw [cyclesOf_cons _ _ i r hr] at hmk ⊢
    rw [bind_awaitEdge_cons _ _ i r hr]
    obtain ⟨o, l, hl⟩ := hk i r hr
    rw [hl, MasterKeeps, hacc, List.length_singleton, Nat.add_sub_cancel] at hmk
    obtain ⟨h1, h2, h3⟩ := h i r hr hmk.1 (by rw [hl]; exact hmk.2)
    refine ⟨h1, ?_, ?_⟩
    · intro a s' he
      obtain ⟨g1, g2, g3, g4⟩ := h2 a s' he
      show _ ∧ _
      rw [acceptedBeats_cons, hacc]
      refine ⟨by simp [g1], ?_, g3, g4.beat _ (by rw [hacc]; simp)⟩
      rw [g2, hmem, storeWords_cons c hc]; rfl
    · intro s' he
      obtain ⟨g1, g2, g3, g4⟩ := h3 s' he
      rw [acceptedBeats_cons, hacc]
      refine ⟨by simp; omega, ?_, g3, fun hb => (g4 (by simpa using hb)).beat _ (by rw [hacc]; simp)⟩
      rw [g2, hmem, storeWords_cons c hc]; rfl

/-- clean inputs -/
def SimClean (s : Sim MemIn MemOut) : Prop := ∀ i ∈ s.cur :: s.rest, BeatClean i

theorem simClean_next {s : Sim MemIn MemOut} {i : MemIn} {r : List MemIn} {p : Phase} {o : MemOut} (h : SimClean s) (hr : s.rest = i :: r) : SimClean ⟨p, o, s.cur, i, r⟩ := by
  intro j hj
  exact h j (by rw [hr]; simp only [List.mem_cons] at hj ⊢; tauto)

theorem outcome_hold (c : MemCfg) (gaps : Bool) (n : Nat) (k : M MemIn MemOut Unit) (hk : Good k) (mem : Nat → Option Nat) (addr d : Nat)
    (h : ∀ s' : Sim MemIn MemOut, s'.phase = .edge → s'.out.mem = mem → s'.out.waitrequest = .zero → s'.out.drawn = d → SimClean s' →
      (0 < n → s'.prev.write ≠ .zero → s'.cur.write = .one) → Outcome c gaps n mem addr (k s')) :
    ∀ (m : Nat) (s : Sim MemIn MemOut), s.phase = .edge → s.out.mem = mem → s.out.drawn = d → SimClean s → (m = 0 → 0 < n → s.prev.write ≠ .zero → s.cur.write = .one) →
      Outcome c gaps n mem addr ((memHold m >>= fun _ => (write (fun o => { o with waitrequest := .zero }) >>= fun _ => k)) s) := by
  intro m
  induction m with
  | zero =>
    intro s hs hm hd hcl he
    rw [memHold, pure_bind, bind_write _ _ _ (by rw [hs]; simp)]
    exact h _ hs hm rfl hd hcl (he rfl)
  | succ m ih =>
    intro s hs hm hd hcl _
    rw [memHold]
    simp only [bind_assoc]
    rw [bind_write _ _ _ (by rw [hs]; simp)]
    refine outcome_edge_idle ?_ ?_ (fun _ => rfl) hm ?_
    · intro i r hr
      exact startsWith_of_good (Good.bind (memHold_good m) fun _ => Good.bind (Good.write _) fun _ => hk) _
    · simp [acceptedBeats]
    · intro i r hr hkeep
      refine ih _ rfl hm hd (simClean_next hcl hr) (fun _ hn hp => ?_)
      simp only at hp
      refine hkeep hn ?_ (Or.inr rfl)
      rcases (hcl s.cur (by simp)).1 with h0 | h1
      · exact absurd h0 hp
      · exact h1

theorem outcome_waitLoop (c : MemCfg) (gaps : Bool) (n : Nat) (hpos : 0 < n) (k : M MemIn MemOut Unit) (hk : Good k) (mem : Nat → Option Nat) (addr d : Nat)
    (h : ∀ s' : Sim MemIn MemOut, s'.out.mem = mem → s'.out.waitrequest = .zero → s'.out.drawn = d → SimClean s' →
      s'.cur.write = .one → Outcome c gaps n mem addr (k s')) :
    ∀ (l : Nat) (s : Sim MemIn MemOut), s.rest.length = l → s.phase = .mid → s.out.mem = mem → s.out.waitrequest = .zero → s.out.drawn = d → SimClean s →
      Outcome c gaps n mem addr ((loop waitWriteBody () >>= fun _ => k) s) := by
  intro l
  induction l with
  | zero =>
    intro s hl hs hm hw hd hcl
    rw [bind_run, loop_unfold _ waitWriteBody_consumes, ← bind_run]
    simp only [waitWriteBody, bind_assoc]
    rw [bind_inp_mid _ _ hs]
    by_cases h0 : s.cur.write = .zero
    · simp only [if_pos h0, bind_assoc]
      refine outcome_edge_idle ?_ ?_ (fun h => by omega) hm ?_
      · intro i r hr; rw [hr] at hl; simp at hl
      · simp [acceptedBeats, h0]
      · intro i r hr; rw [hr] at hl; simp at hl
    · simp only [if_neg h0, pure_bind]
      exact h s hm hw hd hcl ((hcl s.cur (by simp)).1.resolve_left h0)
  | succ l ih =>
    intro s hl hs hm hw hd hcl
    rw [bind_run, loop_unfold _ waitWriteBody_consumes, ← bind_run]
    simp only [waitWriteBody, bind_assoc]
    rw [bind_inp_mid _ _ hs]
    by_cases h0 : s.cur.write = .zero
    · simp only [if_pos h0, bind_assoc]
      refine outcome_edge_idle ?_ ?_ (fun h => by omega) hm ?_
      · intro i r hr
        refine startsWith_of_good (x := (do nextStep; (pure (Sum.inl ()) : M MemIn MemOut (Unit ⊕ Unit)) >>= fun x => (match x with
          | .inl b' => loop waitWriteBody b'
          | .inr a => pure a) >>= fun _ => k)) ?_ _
        refine Good.bind Good.nextStep fun _ => Good.bind (Good.pure _) fun x => Good.bind ?_ fun _ => hk
        cases x with
        | inl _ => exact Good.loop waitWriteBody waitWriteBody_consumes waitWriteBody_good ()
        | inr a => exact Good.pure a
      · simp [acceptedBeats, h0]
      · intro i r hr _
        rw [bind_nextStep]
        simp only [pure_bind]
        refine ih _ ?_ rfl hm hw hd (simClean_next hcl hr)
        rw [hr] at hl; simpa using hl
    · simp only [if_neg h0, pure_bind]
      exact h s hm hw hd hcl ((hcl s.cur (by simp)).1.resolve_left h0)

theorem outcome_beats (c : MemCfg) (hc : 0 < c.width / 8) (gaps : Bool) (rand : Nat → Nat) (addr : Nat) : ∀ (n count : Nat) (s : Sim MemIn MemOut),
    s.out.waitrequest = .zero → SimClean s → (0 < n → s.phase = .edge → s.prev.write ≠ .zero → s.cur.write = .one) → (n = 0 → s.phase ≠ .ro) →
    (gaps = false ∨ (c.writeBurstWaitReq = true ∧ NoZeroWait c rand (n - 1) s.out.drawn)) →
    Outcome c gaps n s.out.mem (addr + count * c.size) (memBurstBeats c rand addr n count s) := by
  intro n
  induction n with
  | zero =>
    intro count s hw hcl _ hro _ _
    rw [memBurstBeats, pure_run]
    refine ⟨fun _ _ h => (by cases h), fun a s' h => ?_, fun _ h => (by cases h)⟩
    simp only [End.ok.injEq] at h
    obtain ⟨-, rfl⟩ := h
    exact ⟨rfl, (storeWords_nil _ _ _).symm, hro rfl, [], [], rfl, by simp, fun _ => rfl, fun h => by omega⟩
  | succ n ih =>
    intro count s hw hcl hpre _ hreg
    rw [memBurstBeats]
    have hgood : Good (memWaitrequest c rand >>= fun _ => memBurstBeats c rand addr n (count + 1)) :=
      Good.bind (memWaitrequest_good _ _) fun _ => memBurstBeats_good _ _ _ _ _
    -- from the beat on
    have hbeat : ∀ s' : Sim MemIn MemOut, s'.out.mem = s.out.mem → s'.out.waitrequest = .zero → s'.out.drawn = s.out.drawn → SimClean s' →
        s'.cur.write = .one → Outcome c gaps (n + 1) s.out.mem (addr + count * c.size)
          ((memStore c (addr + count * c.size) >>= fun _ => awaitEdge >>= fun _ => memWaitrequest c rand >>= fun _ => memBurstBeats c rand addr n (count + 1)) s') := by
      intro s' hm' hw' hd' hcl' hwr
      unfold memStore
      simp only [bind_assoc]
      rw [bind_nextStep, bind_inp_mid _ _ rfl]
      simp only
      rw [toUnsigned_ok _ ((hcl' s'.cur (by simp)).2 hwr), bind_ofExcept_ok, bind_setPy]
      refine outcome_edge_beat hc ?_ ?_ ?_ ?_
      · intro i r hr; exact startsWith_of_good hgood _
      · simp [acceptedBeats, hwr, hw']
      · simp only [hm']
      · intro i r hr hkeep
        simp only at hr hkeep
        have hcl2 : ∀ o, SimClean ⟨.edge, o, s'.cur, i, r⟩ := fun o => simClean_next hcl' hr
        have haddr : addr + count * c.size + c.size = addr + (count + 1) * c.size := by rw [Nat.add_mul, Nat.one_mul]; omega
        rw [haddr]
        unfold memWaitrequest
        by_cases hwb : c.writeBurstWaitReq = true
        · simp only [hwb, Coro.when, if_true]
          simp only [memDraw, bind_assoc]
          rw [bind_getOut, bind_setPy]
          simp only [pure_bind]
          by_cases hr4 : rand s.out.drawn % 4 = 0
          · rw [hd'] at *
            simp only [hr4, if_true, memRandint, memDraw, bind_assoc]
            rw [bind_getOut, bind_setPy]
            simp only [pure_bind, Nat.not_lt_zero, if_false]
            refine outcome_hold c gaps n (memBurstBeats c rand addr n (count + 1)) (memBurstBeats_good _ _ _ _ _) _ _ (s.out.drawn + 1 + 1) ?_ _ _ rfl rfl rfl (hcl2 _) ?_
            · intro s2 h1 h2 h3 h4 h5 h6
              rw [← h2]
              refine ih (count + 1) s2 h3 h5 (fun hn _ => h6 hn) (fun _ => by rw [h1]; simp) ?_
              rcases hreg with h | ⟨h, h'⟩
              · exact Or.inl h
              · refine Or.inr ⟨h, ?_⟩
                rw [h4]
                cases n with
                | zero => exact trivial
                | succ n =>
                  rw [Nat.add_sub_cancel, NoZeroWait, if_pos hr4] at h'
                  exact h'.2
            · intro hm0 hn _
              rcases hreg with h | ⟨h, h'⟩
              · exact hkeep hn hwr (Or.inl h)
              · cases n with
                | zero => omega
                | succ n =>
                  rw [Nat.add_sub_cancel, NoZeroWait, if_pos hr4] at h'
                  simp only [Nat.zero_add, Nat.sub_zero] at hm0
                  exact absurd hm0 h'.1
          · rw [hd'] at *
            simp only [if_neg hr4, bind_assoc]
            rw [bind_nextStep, bind_write _ _ _ (by simp)]
            refine ih (count + 1) ⟨.mid, _, _, _, _⟩ rfl (hcl2 s'.out) (fun _ h => by simp at h) (fun _ => by simp) ?_
            rcases hreg with h | ⟨h, h'⟩
            · exact Or.inl h
            · refine Or.inr ⟨h, ?_⟩
              cases n with
              | zero => exact trivial
              | succ n =>
                rw [Nat.add_sub_cancel, NoZeroWait, if_neg hr4] at h'
                exact h'
        · rw [show c.writeBurstWaitReq = false by simpa using hwb]
          simp only [Coro.when, Bool.false_eq_true, if_false, pure_bind]
          refine ih (count + 1) ⟨.edge, _, _, _, _⟩ hw' (hcl2 _) (fun hn _ _ => ?_) (fun _ => by simp) ?_
          · rcases hreg with h | ⟨h, -⟩
            · exact hkeep hn hwr (Or.inl h)
            · exact absurd h hwb
          · rcases hreg with h | ⟨h, -⟩
            · exact Or.inl h
            · exact absurd h hwb
    unfold memWaitWrite
    simp only [bind_assoc]
    have hgood' : Good (memStore c (addr + count * c.size) >>= fun _ => awaitEdge >>= fun _ => memWaitrequest c rand >>= fun _ => memBurstBeats c rand addr n (count + 1)) :=
      Good.bind (memStore_good _ _) fun _ => Good.bind Good.awaitEdge fun _ => hgood
    obtain ⟨i, hinp, hi1, hi2⟩ : ∃ i, (inp : M MemIn MemOut MemIn) s = ([], .ok i s) ∧ (s.phase = .edge → i = s.prev) ∧ (s.phase ≠ .edge → i = s.cur) :=
      ⟨_, rfl, by intro h; rw [h], by intro h; cases hp : s.phase <;> simp_all⟩
    rw [bind_silent _ _ _ _ _ hinp]
    by_cases h0 : i.write = .zero
    · simp only [if_pos h0, bind_assoc]
      rw [bind_nextStep]
      exact outcome_waitLoop c gaps (n + 1) (by omega) _ hgood' _ _ s.out.drawn (fun s' h1 h2 h3 h4 h5 => hbeat s' h1 h2 h3 h4 h5) _ ⟨.mid, s.out, s.prev, s.cur, s.rest⟩ rfl rfl rfl hw rfl hcl
    · simp only [if_neg h0, pure_bind]
      refine hbeat s rfl hw rfl hcl ?_
      by_cases hp : s.phase = .edge
      · rw [hi1 hp] at h0
        exact hpre (by omega) hp h0
      · rw [hi2 hp] at h0
        exact ((hcl s.cur (by simp)).1.resolve_left h0)

theorem Outcome.bind_silent {c : MemCfg} {gaps : Bool} {b : Nat} {mem : Nat → Option Nat} {addr : Nat} {x : M MemIn MemOut Unit} {s : Sim MemIn MemOut}
    (h : Outcome c gaps b mem addr (x s)) (f : M MemIn MemOut Unit) (g : MemOut → MemOut) (hg : ∀ o, (g o).mem = o.mem)
    (hf : ∀ s' : Sim MemIn MemOut, s'.phase ≠ .ro → f s' = ([], .ok () { s' with out := g s'.out }))
    (hmk : MasterKeeps gaps b (cyclesOf (x s))) :
    Outcome c gaps b mem addr ((x >>= fun _ => f) s) := by
  intro _
  rw [bind_run]
  obtain ⟨h1, h2, h3⟩ := h hmk
  cases hx : x s with
  | mk t e =>
    rw [hx] at h1 h2 h3
    cases e with
    | ok a s' =>
      obtain ⟨g1, g2, g3, g4⟩ := h2 a s' rfl
      rw [andThen_ok, hf s' g3, List.append_nil]
      refine ⟨fun _ _ h => (by cases h), fun a s'' h => ?_, fun _ h => (by cases h)⟩
      simp only [End.ok.injEq] at h
      obtain ⟨-, rfl⟩ := h
      exact ⟨g1, by rw [hg]; exact g2, g3, g4⟩
    | err e s' => exact absurd rfl (h1 e s')
    | blocked s' => rw [andThen_blocked]; exact ⟨h1, fun _ _ h => (by cases h), h3⟩

/-- the cycles of a part of an execution are those of the whole, up to the outputs in the last -/
theorem masterKeeps_last (gaps : Bool) (o o' : MemOut) (i : MemIn) : ∀ (l : List (MemOut × MemIn)) (b : Nat), MasterKeeps gaps b (l ++ [(o, i)]) → MasterKeeps gaps b (l ++ [(o', i)]) := by
  intro l
  induction l with
  | nil => intro b _; exact trivial
  | cons q l ih =>
    intro b h
    cases l with
    | nil => exact ⟨h.1, trivial⟩
    | cons q' l => exact ⟨h.1, ih _ h.2⟩

theorem masterKeeps_append (gaps : Bool) : ∀ (l l' : List (MemOut × MemIn)) (b : Nat), MasterKeeps gaps b (l ++ l') → MasterKeeps gaps b l := by
  intro l
  induction l with
  | nil => intro _ b _; exact trivial
  | cons q l ih =>
    intro l' b h
    cases l with
    | nil => exact trivial
    | cons q' l => exact ⟨h.1, ih l' _ h.2⟩

/-- what is known after a write burst has been served, from the ReadOnly phase of the cycle with the request on -/
theorem memBurstWrite_outcome {c : MemCfg} (hc : BurstMem c) (gaps : Bool) (rand : Nat → Nat) (s : Sim MemIn MemOut) (hs : s.phase = .ro)
    (hcl : SimClean s) (ha : isResolvable s.cur.address = true) (hb : isResolvable s.cur.burstcount = true)
    (hpos : 0 < bitsToNat s.cur.burstcount)
    (h1 : c.writeBurstWaitReq = true → rand s.out.drawn % 4 ≠ 0)
    (h2 : c.writeBurstWaitReq = false → s.out.waitrequest = .zero)
    (hreg : gaps = false ∨ (c.writeBurstWaitReq = true ∧ NoZeroWait c rand (bitsToNat s.cur.burstcount - 1) (s.out.drawn + 1))) :
    Outcome c gaps (bitsToNat s.cur.burstcount) s.out.mem (bitsToNat s.cur.address) (memBurstWrite c rand s) := by
  have hw8 : 0 < c.width / 8 := by have := hc.bytes; have := hc.pos; omega
  have hsz : (c.size == 0) = false := by simp [MemCfg.size]; omega
  have hbe : c.beW.isNone = false := by have := hc.be; cases h : c.beW <;> simp_all
  intro hmk
  have hgoodb : ∀ a n k, Good (memBurstBeats c rand a n k) := memBurstBeats_good c rand
  have fin : ∀ s0 : Sim MemIn MemOut, s0.cur = s.cur → s0.rest = s.rest → s0.out.mem = s.out.mem → s0.out.waitrequest = .zero → s0.phase ≠ .edge →
      (gaps = false ∨ (c.writeBurstWaitReq = true ∧ NoZeroWait c rand (bitsToNat s.cur.burstcount - 1) s0.out.drawn)) →
      memBurstWrite c rand s = (memBurstBeats c rand (bitsToNat s.cur.address) (bitsToNat s.cur.burstcount) 0 >>= fun _ =>
        Coro.when c.writeBurstWaitReq (write (fun o => { o with waitrequest := .one }))) s0 →
      Outcome c gaps (bitsToNat s.cur.burstcount) s.out.mem (bitsToNat s.cur.address) (memBurstWrite c rand s) := by
    intro s0 hcur hrest hmem hw0 hph hreg0 heq
    rw [heq] at hmk ⊢
    have hbeats := outcome_beats c hw8 gaps rand (bitsToNat s.cur.address) (bitsToNat s.cur.burstcount) 0 s0 hw0
      (by intro i hi; rw [hcur, hrest] at hi; exact hcl i hi) (fun _ h => absurd h hph) (fun h => by omega) hreg0
    rw [hmem, Nat.zero_mul, Nat.add_zero] at hbeats
    refine Outcome.bind_silent hbeats _ (fun o => if c.writeBurstWaitReq = true then { o with waitrequest := .one } else o) ?_ ?_ ?_
    · intro o; split <;> rfl
    · intro s' hs'
      by_cases hwb : c.writeBurstWaitReq = true
      · simp only [hwb, Coro.when, if_true, Coro.write, if_neg hs']
      · simp only [if_neg hwb, Coro.when]
        rfl
    · -- the cycles of the beats are those of the whole
      have : ∃ o l, cyclesOf ((memBurstBeats c rand (bitsToNat s.cur.address) (bitsToNat s.cur.burstcount) 0 >>= fun _ =>
          Coro.when c.writeBurstWaitReq (write (fun o => { o with waitrequest := .one }))) s0) =
          (memBurstBeats c rand (bitsToNat s.cur.address) (bitsToNat s.cur.burstcount) 0 s0).1 ++ (o, (memBurstBeats c rand (bitsToNat s.cur.address) (bitsToNat s.cur.burstcount) 0 s0).2.sim.cur) :: l := by
        rw [bind_run]
        cases hx : memBurstBeats c rand (bitsToNat s.cur.address) (bitsToNat s.cur.burstcount) 0 s0 with
        | mk t e =>
          cases e with
          | ok a s' =>
            rw [andThen_ok]
            by_cases hro : c.writeBurstWaitReq = true ∧ s'.phase ≠ .ro
            · refine ⟨{ s'.out with waitrequest := .one }, [], ?_⟩
              simp [Coro.when, hro.1, Coro.write, hro.2, cyclesOf, End.sim]
            · refine ⟨s'.out, [], ?_⟩
              unfold Coro.when
              by_cases h1 : c.writeBurstWaitReq = true
              · have : s'.phase = .ro := by by_contra h; exact hro ⟨h1, h⟩
                simp [h1, Coro.write, this, cyclesOf, End.sim]
              · simp [h1, cyclesOf, End.sim, pure_run]
          | err e s' => exact ⟨s'.out, [], rfl⟩
          | blocked s' => exact ⟨s'.out, [], rfl⟩
      obtain ⟨o, l, hl⟩ := this
      rw [hl] at hmk
      have := masterKeeps_append gaps (_ ++ [(o, _)]) l _ (by rw [List.append_assoc]; exact hmk)
      exact masterKeeps_last gaps o _ _ _ _ this
  by_cases hwb : c.writeBurstWaitReq = true
  · refine fin ⟨.mid, { s.out with drawn := s.out.drawn + 1, waitrequest := .zero }, s.prev, s.cur, s.rest⟩ rfl rfl rfl rfl (by simp) ?_ ?_ hmk
    · rcases hreg with h | h
      · exact Or.inl h
      · exact Or.inr h
    · unfold memBurstWrite memWaitrequest memDraw
      conv_lhs => simp only [hwb, Coro.when, if_true, bind_assoc]
      rw [bind_getOut, bind_setPy]
      simp only [pure_bind, if_neg (h1 hwb), bind_assoc]
      rw [bind_nextStep, bind_write _ _ _ (by simp), bind_inp_mid _ _ rfl, toUnsigned_ok _ ha, bind_ofExcept_ok]
      simp only [hsz, hbe, Bool.false_eq_true, if_false, pure_bind]
      rw [toUnsigned_ok _ hb, bind_ofExcept_ok]
      simp only [hwb, Coro.when, if_true]
  · have hwf : c.writeBurstWaitReq = false := by simpa using hwb
    refine fin s rfl rfl rfl (h2 hwf) (by rw [hs]; simp) ?_ ?_ hmk
    · rcases hreg with h | ⟨h, -⟩
      · exact Or.inl h
      · exact absurd h hwb
    · unfold memBurstWrite memWaitrequest
      conv_lhs => simp only [hwf, Coro.when, Bool.false_eq_true, if_false, pure_bind]
      rw [bind_inp_ro _ _ hs, toUnsigned_ok _ ha, bind_ofExcept_ok]
      simp only [hsz, hbe, Bool.false_eq_true, if_false, pure_bind]
      rw [toUnsigned_ok _ hb, bind_ofExcept_ok]
      simp only [hwf, Coro.when, Bool.false_eq_true, if_false]

/-- an iteration of `_respond` in whose cycle a write burst is requested -/
theorem memCycle_write_run {c : MemCfg} (hc : BurstMem c) (rand : Nat → Nat) (s : Sim MemIn MemOut) (hresp : s.out.responses = [])
    (i : MemIn) (r : List MemIn) (hr : s.rest = i :: r) (hrd : i.read ≠ .one) (hwr : i.write = .one) :
    memCycle c rand s = (let x := memBurstWrite c rand ⟨.ro, memPop c s.out, s.cur, i, r⟩; ((s.out, s.cur) :: x.1, x.2)) := by
  unfold memCycle
  rw [bind_awaitEdge_cons _ _ i r hr]
  rw [bind_silent _ _ _ _ _ (memDoResponse_run c (by have := hc.bytes; omega) ⟨.edge, s.out, s.cur, i, r⟩ (by simp) (by simp [hresp]))]
  rw [bind_readOnly _ _ _ (by simp)]
  have hrp : memReadPart c rand (⟨.ro, memPop c s.out, s.cur, i, r⟩ : Sim MemIn MemOut) = ([], .ok () ⟨.ro, memPop c s.out, s.cur, i, r⟩) := by
    unfold memReadPart
    simp only [hc.read.1, hc.read.2, Coro.when, if_true, Bool.not_true, Bool.false_eq_true, if_false, pure_bind]
    rw [bind_inp_ro _ _ rfl]
    simp [hrd, pure_run]
  rw [bind_silent _ _ _ _ _ hrp]
  have hwp : memWritePart c rand (⟨.ro, memPop c s.out, s.cur, i, r⟩ : Sim MemIn MemOut) = memBurstWrite c rand ⟨.ro, memPop c s.out, s.cur, i, r⟩ := by
    unfold memWritePart
    simp only [hc.write.1, hc.write.2, Coro.when, if_true, Bool.not_true, Bool.false_eq_true, if_false, pure_bind]
    rw [bind_inp_ro _ _ rfl]
    simp [hwr, hc.burst]
  rw [hwp]

/-- a cycle without a request -/
theorem memCycle_idle {c : MemCfg} (hc : BurstMem c) (rand : Nat → Nat) (s : Sim MemIn MemOut) (hresp : s.out.responses = [])
    (i : MemIn) (r : List MemIn) (hr : s.rest = i :: r) (hrd : i.read ≠ .one) (hwr : i.write ≠ .one) :
    memCycle c rand s = ([(s.out, s.cur)], .ok () ⟨.ro, { s.out with responses := [], readdatavalid := .zero }, s.cur, i, r⟩) := by
  unfold memCycle
  rw [bind_awaitEdge_cons _ _ i r hr]
  rw [bind_silent _ _ _ _ _ (memDoResponse_run c (by have := hc.bytes; omega) ⟨.edge, s.out, s.cur, i, r⟩ (by simp) (by simp [hresp]))]
  rw [bind_readOnly _ _ _ (by simp)]
  have hpop : memPop c s.out = { s.out with responses := [], readdatavalid := .zero } := by simp [memPop, hresp, hc.rdv]
  have hrp : memReadPart c rand (⟨.ro, memPop c s.out, s.cur, i, r⟩ : Sim MemIn MemOut) = ([], .ok () ⟨.ro, memPop c s.out, s.cur, i, r⟩) := by
    unfold memReadPart
    simp only [hc.read.1, hc.read.2, Coro.when, if_true, Bool.not_true, Bool.false_eq_true, if_false, pure_bind]
    rw [bind_inp_ro _ _ rfl]
    simp [hrd, pure_run]
  rw [bind_silent _ _ _ _ _ hrp]
  have hwp : memWritePart c rand (⟨.ro, memPop c s.out, s.cur, i, r⟩ : Sim MemIn MemOut) = ([], .ok () ⟨.ro, memPop c s.out, s.cur, i, r⟩) := by
    unfold memWritePart
    simp only [hc.write.1, hc.write.2, Coro.when, if_true, Bool.not_true, Bool.false_eq_true, if_false, pure_bind]
    rw [bind_inp_ro _ _ rfl]
    simp [hwr, pure_run]
  rw [hwp, hpop]

theorem memCycle_good (c : MemCfg) (rand : Nat → Nat) : Good (memCycle c rand) :=
  Good.bind Good.awaitEdge fun _ => Good.bind (memDoResponse_good c) fun _ => Good.bind (Good.readOnly _) fun _ =>
    Good.bind (memReadPart_good c rand) fun _ => memWritePart_good c rand

/-- `_respond` is one iteration after the other -/
theorem memRespond_unfold (c : MemCfg) (rand : Nat → Nat) (s : Sim MemIn MemOut) : memRespond c rand s = (memCycle c rand >>= fun _ => memRespond c rand) s := by
  have hcons : Consumes (fun (_ : Unit) => (do memCycle c rand; pure (.inl ()) : M MemIn MemOut (Unit ⊕ Unit))) := by
    intro b s t b' s' h
    unfold memCycle at h
    simp only [bind_assoc] at h
    exact consumes_of_edge s _ (Good.bind (memDoResponse_good c) fun _ => Good.bind (Good.readOnly _) fun _ =>
      Good.bind (memReadPart_good c rand) fun _ => Good.bind (memWritePart_good c rand) fun _ => Good.pure _) t b' s' h
  conv_lhs => rw [memRespond, loop_unfold _ hcons]
  simp only [bind_assoc, pure_bind]
  rfl

/-- words written and read back -/
theorem burstWord_storeWords (c : MemCfg) (hc : BurstMem c) (mem : Nat → Option Nat) (addr : Nat) (ws : List Nat) (k w : Nat) (hk : ws[k]? = some w)
    (hw : w < 2 ^ c.width) :
    WordThere c (storeWords c mem addr ws) (addr + k * (c.width / 8)) ∧
    burstWord c (storeWords c mem addr ws) (addr + k * (c.width / 8)) = natToBits c.width w := by
  have hw8 : 0 < c.width / 8 := by have := hc.bytes; have := hc.pos; omega
  have hkl := (List.getElem?_eq_some_iff.1 hk).1
  have hbyte : ∀ j < c.width / 8, storeWords c mem addr ws (addr + k * (c.width / 8) + j) = some (byteOf w j).toNat := by
    intro j hj
    have h1 : (k + 1) * (c.width / 8) ≤ ws.length * (c.width / 8) := Nat.mul_le_mul_right _ hkl
    rw [Nat.add_mul, Nat.one_mul] at h1
    rw [storeWords, if_pos (by omega)]
    have h2 : addr + k * (c.width / 8) + j - addr = j + k * (c.width / 8) := by omega
    rw [h2, Nat.add_mul_div_right _ _ hw8, Nat.div_eq_of_lt hj, Nat.zero_add, hk, Nat.add_mul_mod_self_right, Nat.mod_eq_of_lt hj]
    rfl
  refine ⟨Or.inr (fun j hj => ⟨_, hbyte j hj, (byteOf w j).isLt⟩), ?_⟩
  have h0 := hbyte 0 hw8
  rw [Nat.add_zero] at h0
  rw [burstWord, h0]
  simp only
  congr 1
  rw [bytesWord]
  symm
  apply eq_leVal _ _ _ (by rw [pow256, ← hc.bytes]; exact hw)
  intro j hj
  rw [hbyte j hj]
  simp

end CocotbBus
