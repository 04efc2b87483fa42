import Verif.Proof.CausalAx
import Verif.Proof.AxiReadGiveUp
import Verif.Proof.AxiPar

/-! # A memory that accepts and answers everything at once -/

namespace CocotbBus
open Spec Coro

theorem memWord_len (mem : Nat → Byte) (a k : Nat) : (memWord (asBits mem) a k).length = 8 * k := by
  induction k with
  | zero => rfl
  | succ k ih => rw [memWord_succ, List.length_append, ih, asBits, byteBits_length]; omega

theorem lane_memWord (mem : Nat → Byte) (a k l : Nat) (h : l < k) : lane (memWord (asBits mem) a k) l = asBits mem (a + l) := by
  induction k with
  | zero => omega
  | succ k ih =>
    have h8 : (asBits mem (a + k)).length = 8 := byteBits_length _
    have hk := memWord_len mem a k
    rw [memWord_succ]
    unfold lane
    rw [List.length_append, h8, hk]
    by_cases hl : l = k
    · subst hl
      rw [show 8 + 8 * l - 8 * (l + 1) = 0 by omega, List.drop_zero, List.take_append_of_le_length (by omega), List.take_of_length_le (by omega)]
    · have := ih (by omega)
      unfold lane at this
      rw [hk] at this
      rw [← this, List.drop_append, List.drop_of_length_le (by omega), List.nil_append, h8]
      congr 2
      omega

theorem inBeat_word {size W A b : Nat} (hs : 0 < size) (hd : size ∣ W) (h1 : A ≤ b) (h2 : b < A / size * size + size) : b = A / W * W + b % W := by
  obtain ⟨m, rfl⟩ := hd
  have e : b / size = A / size := by
    apply Nat.le_antisymm
    · have : b / size < A / size + 1 := by
        rw [Nat.div_lt_iff_lt_mul hs, Nat.add_mul, Nat.one_mul]
        exact h2
      omega
    · exact Nat.div_le_div_right h1
  rw [← Nat.div_div_eq_div_mul, ← e, Nat.div_div_eq_div_mul]
  have := Nat.div_add_mod b (size * m)
  rw [Nat.mul_comm] at this
  omega

/-- the beat that is due: its address, its response and whether it is the last -/
def instantRead (c : AxCfg) (m : AxMem) : Option (Nat × Nat × Bool) :=
  match m.ar with
  | none => none
  | some (p, n) =>
    if (p.decode c.dataBytes).2.1 ∣ c.dataBytes ∧ (c.full = true ∨ n + 1 = (p.decode c.dataBytes).2.2.2) ∧ m.code m.k n < 4 then
      some (beatAddr (p.decode c.dataBytes).2.1 (p.decode c.dataBytes).2.2.1 (p.decode c.dataBytes).1 (p.decode c.dataBytes).2.2.2 n, m.code m.k n,
        decide (n + 1 = (p.decode c.dataBytes).2.2.2))
    else none

/-- its signals -/
def instantPins (c : AxCfg) (m : AxMem) : AxIn :=
  { awready := .one, wready := .one, arready := .one, bvalid := Logic.ofBool (m.b.any (fun r => decide (r < 4))), bready := .one, bresp := natToBits 2 (m.b.getD 0),
    rvalid := Logic.ofBool (instantRead c m).isSome, rready := .one, rresp := natToBits 2 (((instantRead c m).map fun x => x.2.1).getD 0),
    rdata := memWord (asBits m.mem) (((instantRead c m).map fun x => x.1).getD 0 / c.dataBytes * c.dataBytes) c.dataBytes,
    rlast := Logic.ofBool (((instantRead c m).map fun x => x.2.2).getD false) }

theorem bFire_instant (c : AxCfg) (m : AxMem) : bFire (instantPins c m) = m.b.any (fun r => decide (r < 4)) := by
  unfold bFire instantPins
  cases m.b.any (fun r => decide (r < 4)) <;> rfl

theorem rFire_instant (c : AxCfg) (m : AxMem) : rFire (instantPins c m) = (instantRead c m).isSome := by
  unfold rFire instantPins
  cases (instantRead c m).isSome <;> rfl

theorem resp_small (n : Nat) (h : n < 4) : respIs (natToBits 2 n) n := ⟨by simp, by rw [bitsToNat_natToBits]; exact Nat.mod_eq_of_lt h, h⟩

theorem instant_read_cases (c : AxCfg) (m : AxMem) (h : (instantRead c m).isSome = true) : ∃ p n, m.ar = some (p, n) ∧ (p.decode c.dataBytes).2.1 ∣ c.dataBytes ∧
    (c.full = true ∨ n + 1 = (p.decode c.dataBytes).2.2.2) ∧ m.code m.k n < 4 ∧
    instantRead c m = some (beatAddr (p.decode c.dataBytes).2.1 (p.decode c.dataBytes).2.2.1 (p.decode c.dataBytes).1 (p.decode c.dataBytes).2.2.2 n, m.code m.k n,
        decide (n + 1 = (p.decode c.dataBytes).2.2.2)) := by
  unfold instantRead at h ⊢
  cases hm : m.ar with
  | none => rw [hm] at h; cases h
  | some x =>
    obtain ⟨p, n⟩ := x
    rw [hm] at h
    simp only at h ⊢
    split at h
    · next hd => exact ⟨p, n, rfl, hd.1, hd.2.1, hd.2.2, by rw [if_pos hd]⟩
    · cases h

theorem instant_right (c : AxCfg) (hW : 0 < c.dataBytes) (m : AxMem) : m.Right c (instantPins c m) ∧ GoodBeat c.dataBytes (instantPins c m) ∧ GoodResp (instantPins c m) := by
  have hb : bFire (instantPins c m) = true → ∃ r, m.b = some r ∧ respIs (instantPins c m).bresp r := by
    intro h
    rw [bFire_instant] at h
    cases hm : m.b with
    | none => rw [hm] at h; cases h
    | some r =>
      rw [hm] at h
      refine ⟨r, rfl, ?_⟩
      show respIs (natToBits 2 (m.b.getD 0)) r
      rw [hm]
      exact resp_small r (by simpa using h)
  have hlen : (instantPins c m).rdata.length = 8 * c.dataBytes := memWord_len _ _ _
  refine ⟨⟨?_, ?_⟩, ?_, ?_⟩
  · intro h r hr
    obtain ⟨r', h1, h2⟩ := hb h
    rw [h1] at hr; cases hr; exact h2
  · intro h p n hp
    rw [rFire_instant] at h
    obtain ⟨p', n', h1, h2, h3, h4, h5⟩ := instant_read_cases c m h
    rw [h1] at hp; cases hp
    have hresp : respIs (instantPins c m).rresp (m.code m.k n) := by
      show respIs (natToBits 2 (((instantRead c m).map fun x => x.2.1).getD 0)) _
      rw [h5]; exact resp_small _ h4
    have hlast : rLast c (instantPins c m) = true ↔ n + 1 = (p.decode c.dataBytes).2.2.2 := by
      have e : (instantPins c m).rlast = Logic.ofBool (decide (n + 1 = (p.decode c.dataBytes).2.2.2)) := by
        show Logic.ofBool (((instantRead c m).map fun x => x.2.2).getD false) = _
        rw [h5]; rfl
      unfold rLast
      rw [e]
      rcases h3 with h3 | h3
      · rw [h3]
        by_cases hd : n + 1 = (p.decode c.dataBytes).2.2.2 <;> simp [hd, Logic.ofBool]
      · simp [h3, Logic.ofBool]
    have hdata : m.code m.k n = 0 → ∀ b, InBeat (p.decode c.dataBytes).2.1 (p.decode c.dataBytes).2.2.1 (p.decode c.dataBytes).1 (p.decode c.dataBytes).2.2.2 n b →
        lane (instantPins c m).rdata (b % c.dataBytes) = CocotbBus.byteBits (m.mem b) := by
      intro _ b hb
      have e : (instantPins c m).rdata = memWord (asBits m.mem) (beatAddr (p.decode c.dataBytes).2.1 (p.decode c.dataBytes).2.2.1 (p.decode c.dataBytes).1
          (p.decode c.dataBytes).2.2.2 n / c.dataBytes * c.dataBytes) c.dataBytes := by
        show memWord (asBits m.mem) (((instantRead c m).map fun x => x.1).getD 0 / c.dataBytes * c.dataBytes) c.dataBytes = _
        rw [h5]; rfl
      rw [e, lane_memWord _ _ _ _ (Nat.mod_lt _ hW), ← inBeat_word (Nat.pos_of_dvd_of_pos h2 hW) h2 hb.1 hb.2]
      rfl
    exact ⟨hlen, hresp, hlast, hdata⟩
  · intro h
    rw [rFire_instant] at h
    obtain ⟨p', n', h1, h2, h3, h4, h5⟩ := instant_read_cases c m h
    refine ⟨hlen, m.code m.k n', ?_⟩
    show respIs (natToBits 2 (((instantRead c m).map fun x => x.2.1).getD 0)) _
    rw [h5]; exact resp_small _ h4
  · intro h
    obtain ⟨r, -, h2⟩ := hb h
    exact ⟨r, h2⟩

theorem instant_serves (c : AxCfg) (hW : 0 < c.dataBytes) (t : List (AxAll × AxIn)) : ∀ m, DrivenBy (AxMem.step c) (instantPins c) m t → AxMem.Serves c m t := by
  induction t with
  | nil => intro m _; trivial
  | cons q t ih => intro m h; exact ⟨by rw [h.1]; exact (instant_right c hW m).1, ih _ h.2⟩

theorem instant_good (c : AxCfg) (hW : 0 < c.dataBytes) (t : List (AxAll × AxIn)) : ∀ m, DrivenBy (AxMem.step c) (instantPins c) m t → ∀ q ∈ t, GoodBeat c.dataBytes q.2 ∧ GoodResp q.2 := by
  induction t with
  | nil => intro m _ q hq; cases hq
  | cons q t ih =>
    intro m h p hp
    rcases List.mem_cons.1 hp with rfl | hp
    · rw [h.1]; exact (instant_right c hW m).2
    · exact ih _ h.2 p hp

/-! ### Nothing waits -/

theorem axCommit_cases (c : AxCfg) (m : AxMem) : (AxMem.commit c m = m) ∨
    ((AxMem.commit c m).aw = none ∧ (AxMem.commit c m).w = [] ∧ (AxMem.commit c m).ar = m.ar ∧ (AxMem.commit c m).b = some (m.code m.k 0) ∧ (AxMem.commit c m).code = m.code) := by
  unfold AxMem.commit
  split
  · exact .inl rfl
  · split
    split
    · exact .inr ⟨rfl, rfl, rfl, rfl, rfl⟩
    · exact .inl rfl

/-- nothing waits, and everything owed will be answered -/
def Instant (c : AxCfg) (m : AxMem) (x : AxWait) : Prop :=
  x.aw = 0 ∧ x.w = 0 ∧ x.ar = 0 ∧ x.r = 0 ∧ (x.b = none ∨ x.b = some 0 ∧ m.b.isSome = true) ∧ (∀ k n, m.code k n < 4) ∧ (∀ r, m.b = some r → r < 4) ∧
  ∀ p n, m.ar = some (p, n) → (p.decode c.dataBytes).2.1 ∣ c.dataBytes ∧ (c.full = true ∨ n + 1 = (p.decode c.dataBytes).2.2.2)

/-- the request can be answered on this bus -/
def FitsBus (c : AxCfg) (p : AddrReq) : Prop := (p.decode c.dataBytes).2.1 ∣ c.dataBytes

theorem Instant.step {c : AxCfg} {m : AxMem} {x : AxWait} (h : Instant c m x) (q : AxAll × AxIn) (hq : q.2 = instantPins c m)
    (hl : (arStream c).xfer (q.1.2, q.2) = true → FitsBus c ((arStream c).payload q.1.2)) : Instant c (m.step c q) (x.step c m q) := by
  obtain ⟨h1, h2, h3, h4, h5, h6, h7, h8⟩ := h
  have hb : m.b.isSome = true → bFire q.2 = true := by
    intro hs
    rw [hq, bFire_instant]
    cases hm : m.b with
    | none => rw [hm] at hs; cases hs
    | some r => simpa using h7 r hm
  have hr : m.ar.isSome = true → rFire q.2 = true := by
    intro hs
    rw [hq, rFire_instant]
    unfold instantRead
    cases hm : m.ar with
    | none => rw [hm] at hs; cases hs
    | some y =>
      obtain ⟨p, n⟩ := y
      simp only
      rw [if_pos ⟨(h8 p n hm).1, (h8 p n hm).2, h6 _ _⟩]; rfl
  have ra : (awStream c).ready q.2 = true := by rw [hq]; rfl
  have rw' : (wStream c).ready q.2 = true := by rw [hq]; rfl
  have rr : (arStream c).ready q.2 = true := by rw [hq]; rfl
  have har : (m.step c q).ar = if (arStream c).xfer (q.1.2, q.2) then some ((arStream c).payload q.1.2, 0)
      else match m.ar with
      | none => none
      | some (p, n) => if rFire q.2 then (if n + 1 = (p.decode c.dataBytes).2.2.2 then none else some (p, n + 1)) else some (p, n) := by
    unfold AxMem.step
    rcases axCommit_cases c _ with e | e
    · rw [e]; rfl
    · rw [e.2.2.1]; rfl
  have hcode : (m.step c q).code = m.code := by
    unfold AxMem.step
    rcases axCommit_cases c _ with e | e
    · rw [e]
    · rw [e.2.2.2.2]
  have hbs : ((m.step c q).b = (if bFire q.2 then none else m.b) ∧ ((awStream c).xfer (q.1.1.1, q.2) = true → (m.step c q).aw.isNone = false) ∧
        ((wStream c).xfer (q.1.1.2, q.2) = true → (m.step c q).w.isEmpty = false)) ∨ ∃ r < 4, (m.step c q).b = some r := by
    unfold AxMem.step
    rcases axCommit_cases c _ with e | e
    · left
      rw [e]
      exact ⟨rfl, fun hx => by simp [hx], fun hx => by simp [hx]⟩
    · right
      rw [e.2.2.2.1]
      exact ⟨_, h6 _ _, rfl⟩
  refine ⟨?_, ?_, ?_, ?_, ?_, ?_, ?_, ?_⟩
  · simp only [AxWait.step, ra]; simp
  · simp only [AxWait.step, rw']; simp
  · simp only [AxWait.step, rr]; simp
  · simp only [AxWait.step]
    cases hx : (arStream c).xfer (q.1.2, q.2) with
    | true => simp
    | false =>
      cases hm : m.ar with
      | none => rw [har, hx, hm]; simp
      | some y => rw [hr (by rw [hm]; rfl)]; simp
  · simp only [AxWait.step]
    rcases hbs with ⟨hb1, hb2, hb3⟩ | ⟨r, -, hb1⟩
    · left
      rw [if_neg]
      · split
        · rfl
        · next hf =>
          rcases h5 with h5 | ⟨-, h5⟩
          · rw [h5]; rfl
          · exact absurd (hb h5) hf
      · intro hc
        simp only [Bool.or_eq_true, Bool.and_eq_true] at hc
        rcases hc with ⟨c1, c2⟩ | ⟨c1, c2⟩
        · rw [hb2 c1] at c2; cases c2
        · rw [hb3 c1] at c2; cases c2
    · split
      · exact .inr ⟨rfl, by rw [hb1]; rfl⟩
      · split
        · exact .inl rfl
        · next hf =>
          rcases h5 with h5 | ⟨-, h5⟩
          · rw [h5]; exact .inl rfl
          · exact absurd (hb h5) hf
  · rw [hcode]; exact h6
  · intro r hr'
    rcases hbs with ⟨hb1, -, -⟩ | ⟨r', hlt, hb1⟩
    · rw [hb1] at hr'
      split at hr'
      · cases hr'
      · exact h7 r hr'
    · rw [hb1] at hr'; cases hr'; exact hlt
  · intro p n hp
    rw [har] at hp
    split at hp
    · next hx =>
      cases hp
      refine ⟨hl hx, ?_⟩
      cases hf : c.full with
      | true => exact .inl rfl
      | false => right; simp [arStream, AddrReq.decode, hf]
    · split at hp
      · cases hp
      · next p' n' hm =>
        obtain ⟨g1, g2⟩ := h8 p' n' hm
        split at hp
        · split at hp
          · cases hp
          · next hn =>
            cases hp
            exact ⟨g1, .inl (g2.resolve_right hn)⟩
        · cases hp; exact ⟨g1, g2⟩

theorem Instant.below {c : AxCfg} {m : AxMem} {x : AxWait} (h : Instant c m x) : x.Below 1 := by
  obtain ⟨h1, h2, h3, h4, h5, -⟩ := h
  refine ⟨by omega, by omega, by omega, by omega, fun k hk => ?_⟩
  rcases h5 with h5 | ⟨h5, -⟩ <;> rw [h5] at hk <;> cases hk
  omega

theorem instant_prompt (c : AxCfg) (t : List (AxAll × AxIn)) : ∀ m x, Instant c m x → DrivenBy (AxMem.step c) (instantPins c) m t →
    (∀ q ∈ t, (arStream c).xfer (q.1.2, q.2) = true → FitsBus c ((arStream c).payload q.1.2)) → AxMem.Prompt 1 c m x t := by
  induction t with
  | nil => intro m x h _ _; exact h.below
  | cons q t ih =>
    intro m x h hf hl
    exact ⟨h.below, ih _ _ (h.step q hf.1 (hl q (by simp))) hf.2 (fun p hp => hl p (by simp [hp]))⟩

/-! ### The requests of legal calls -/

theorem taken_mem {I O P : Type} (V : Stream I O P) (t : List (O × I)) (q : O × I) (hq : q ∈ t) (hx : V.xfer q = true) : V.payload q.1 ∈ V.taken t :=
  List.mem_map.2 ⟨q, List.mem_filter.2 ⟨hq, hx⟩, rfl⟩

theorem read_fits (c : AxCfg) (hc : Standard c) (a : Nat) (ha : a < 2 ^ c.addrW) (length : Int) (size : Option Int) (burst : AxiBurst) (rr sync : Bool) (sz : Nat)
    (hl : Legal c a length size burst sz) (hlite : c.full = false → sz = c.dataBytes) (s : Sim AxIn AddrOut) (hs : ReadReady sync s) :
    ∀ q ∈ (axiRead c a length size burst rr sync s).1, (arStream c).xfer q = true → FitsBus c ((arStream c).payload q.1) := by
  rw [axiRead_legal c hc a length size burst rr sync sz hl]
  obtain ⟨h1, h2, h3, k, m, h4, h5, h6⟩ := Legal.facts hl hc ha
  intro q hq hx
  have hm := taken_mem (arStream c) _ q hq hx
  have hp : (arStream c).payload q.1 = addrReq c a length.toNat sz burst := by
    rcases axiReadRun_asked c a length.toNat sz burst rr sync h1 h2 s hs with ⟨h, -⟩ | ⟨h, -⟩
    · rw [h] at hm; cases hm
    · rw [h] at hm; exact List.mem_singleton.1 hm
  rw [hp]
  unfold FitsBus addrReq AddrReq.decode
  cases hf : c.full with
  | false => simp
  | true =>
    simp only [if_true]
    have e : bitsToNat (natToBits c.sizeW (Nat.log2 sz)) = k := by
      rw [bitsToNat_natToBits, h4, Nat.log2_two_pow]
      refine Nat.mod_eq_of_lt ?_
      have := (h1.2 hf).2.2
      rwa [h4, Nat.log2_two_pow] at this
    rw [e, ← h4, h6]
    exact Nat.dvd_mul_right _ _

theorem onRead_cells {α : Type} (x : M AxIn AddrOut α) (s : Sim AxIn AxAll) (q : AxAll × AxIn) (h : q ∈ (onRead x s).1) :
    (q.1.2, q.2) ∈ (x ⟨s.phase, s.out.2, s.prev, s.cur, s.rest⟩).1 := by
  unfold onRead at h
  obtain ⟨p, hp, rfl⟩ := List.mem_map.1 h
  exact hp

theorem onWrite_cells {α : Type} (x : M AxIn (AddrOut × WOut) α) (s : Sim AxIn AxAll) (q : AxAll × AxIn) (h : q ∈ (onWrite x s).1) : q.1.2 = s.out.2 := by
  unfold onWrite at h
  obtain ⟨p, hp, rfl⟩ := List.mem_map.1 h
  rfl

theorem andThen_pure_cells {I O α β : Type} (r : Res I O α) (f : α → β) : (Res.andThen r (fun a => pure (f a))).1 = r.1 := by
  obtain ⟨t, e⟩ := r
  cases e with
  | ok a s => exact List.append_nil _
  | err e s => rfl
  | blocked s => rfl

theorem axStep_fits (c : AxCfg) (hc : Standard c) (op : AxOp) (hop : AxOpOk c op) (s : Sim AxIn AxAll) (hs : s.phase ≠ .ro ∧ s.out.2.valid = .zero) :
    ∀ q ∈ (axStep c op s).1, (arStream c).xfer (q.1.2, q.2) = true → FitsBus c ((arStream c).payload q.1.2) := by
  have quiet : ∀ (q : AxAll × AxIn), q.1.2 = s.out.2 → (arStream c).xfer (q.1.2, q.2) = true → FitsBus c ((arStream c).payload q.1.2) := by
    intro q hq hx
    exfalso
    simp [Stream.xfer, arStream, hq, hs.2] at hx
  intro q hq hx
  cases op with
  | write a v size burst be al dl sync =>
    have e : (axStep c (.write a v size burst be al dl sync) s).1 = (onWrite (axiWrite c a v size burst be al dl sync) s).1 := andThen_pure_cells _ _
    rw [e] at hq
    exact quiet q (onWrite_cells _ s q hq) hx
  | liteWrite a v be al dl sync =>
    have e : (axStep c (.liteWrite a v be al dl sync) s).1 = (onWrite (liteWrite c a (.inl v) be al dl sync) s).1 := andThen_pure_cells _ _
    rw [e] at hq
    exact quiet q (onWrite_cells _ s q hq) hx
  | read a len size burst sync =>
    obtain ⟨o1, o2, o3, -⟩ := hop
    have e : (axStep c (.read a len size burst sync) s).1 = (onRead (axiRead c a len size burst false sync) s).1 := andThen_pure_cells _ _
    rw [e] at hq
    exact read_fits c hc a o2 len size burst false sync _ o3 (by rw [o1]; intro h; cases h) _ ⟨.inr hs.1, hs.2⟩ _ (onRead_cells _ s q hq) hx
  | liteRead a sync =>
    have e : (axStep c (.liteRead a sync) s).1 = (onRead (liteRead c a sync) s).1 := andThen_pure_cells _ _
    rw [e] at hq
    have hq := onRead_cells _ s q hq
    have e2 : ∀ s, (liteRead c a sync s).1 = (axiRead c a 1 none .incr false sync s).1 := by
      intro s
      show (Res.andThen (axiRead c a 1 none .incr false sync s) liteFirst).1 = _
      generalize axiRead c a 1 none .incr false sync s = r
      obtain ⟨t, e⟩ := r
      cases e with
      | ok d s => rw [andThen_ok]; unfold liteFirst; split <;> exact List.append_nil _
      | err e s => rfl
      | blocked s => rfl
    rw [e2] at hq
    exact read_fits c hc a hop.2 1 none .incr false sync _ (legal_single c hc a) (fun _ => rfl) _ ⟨.inr hs.1, hs.2⟩ _ hq hx
  | pause n =>
    have hk : Keeps (fun o : AxAll => o.2 = s.out.2) (axStep c (.pause n)) := Keeps.bind (Keeps.edges n) fun _ => Keeps.pure _
    exact quiet q ((hk s rfl).1 q hq) hx

theorem axUse_fits (c : AxCfg) (hc : Standard c) (E : Nat → Nat → Nat) (ops : List AxOp) : ∀ (s : Sim AxIn AxAll) (kr : Nat) (mem : Nat → Byte), (∀ op ∈ ops, AxOpOk c op) → AxReady s →
    (∀ i ∈ s.cur :: s.rest, GoodBeat c.dataBytes i ∧ GoodResp i) → AxMem.Serves c (AxMem.idle E kr mem) (axUse c ops s).2.1 →
    ∀ q ∈ (axUse c ops s).2.1, (arStream c).xfer (q.1.2, q.2) = true → FitsBus c ((arStream c).payload q.1.2) := by
  induction ops with
  | nil => intro s kr mem _ hs hg hserve q hq; cases hq
  | cons op ops ih =>
    intro s kr mem hops hs hg hserve q hq hx
    obtain ⟨h0, h⟩ := axUse_step c hc op ops (hops op (by simp)) s hs hg E kr mem hserve
    have hfit := axStep_fits c hc op (hops op (by simp)) s ⟨hs.1, hs.2.2.2⟩ q
    rcases h with ⟨s', h⟩ | ⟨s', h1, h2, h3, h4⟩
    · rw [axUse_blocked c op ops s (axStep c op s).1 s' (by rw [← h])] at hq
      exact hfit hq hx
    · have e := axUse_cons c op ops s (axStep c op s).1 _ s' (by rw [← h1]) (fun e he => axOutcome_err he)
      rw [e] at hserve hq
      rw [serves_append, h3] at hserve
      rcases List.mem_append.1 hq with hq | hq
      · exact hfit hq hx
      · exact ih s' _ _ (fun o ho => hops o (by simp [ho])) h2 (fun i hi => hg i (h4 i hi)) hserve.2 q hq hx

theorem axUse_exists (c : AxCfg) (hc : Standard c) (ops : List AxOp) (hops : ∀ op ∈ ops, AxOpOk c op) (code : Nat → Nat → Nat) (hcode : ∀ k n, code k n < 4) (mem : Nat → Byte)
    (ph : Phase) (hph : ph ≠ .ro) (o : AxAll) (ho : o.1.1.valid = .zero ∧ o.1.2.valid = .zero ∧ o.2.valid = .zero) (N : Nat) :
    ∃ s : Sim AxIn AxAll, s.phase = ph ∧ s.out = o ∧ s.rest.length = N ∧ (∀ i ∈ s.cur :: s.rest, GoodBeat c.dataBytes i ∧ GoodResp i) ∧
      AxMem.Serves c (AxMem.idle code 0 mem) (axUse c ops s).2.1 ∧ AxMem.Prompt 1 c (AxMem.idle code 0 mem) AxWait.zero (axUse c ops s).2.1 := by
  have hW : 0 < c.dataBytes := by obtain ⟨⟨j, -, hj⟩, -⟩ := hc; rw [hj]; exact Nat.two_pow_pos j
  obtain ⟨s, h1, h2, h3, h4⟩ := CausalW.closed (CausalW.axUse c ops) (axUse_good c ops) (AxMem.step c) (instantPins c) (AxMem.idle code 0 mem) ph o N
  have hgood : ∀ i ∈ s.cur :: s.rest, GoodBeat c.dataBytes i ∧ GoodResp i := by
    intro i hi
    have hw : (wholeRun (axUse c ops s).2).map Prod.snd = s.cur :: s.rest := by
      rw [wholeRun, List.map_append, List.map_map, show (Prod.snd ∘ fun i => ((axUse c ops s).2.2.sim.out, i)) = (fun i : AxIn => i) from rfl, List.map_id']
      exact (axUse_good c ops s).1.symm
    rw [← hw] at hi
    obtain ⟨q, hq, rfl⟩ := List.mem_map.1 hi
    exact instant_good c hW _ _ h4 q hq
  have h5 := ((drivenBy_append _ _ _ _ _).1 h4).1
  have hserve := instant_serves c hW _ _ h5
  refine ⟨s, h1, h2, h3, hgood, hserve, ?_⟩
  refine instant_prompt c _ _ _ ⟨rfl, rfl, rfl, rfl, .inl rfl, hcode, fun r h => (by cases h), fun p n h => (by cases h)⟩ h5 ?_
  exact axUse_fits c hc code ops s 0 mem hops ⟨by rw [h1]; exact hph, by rw [h2]; exact ho⟩ hgood hserve

end CocotbBus
