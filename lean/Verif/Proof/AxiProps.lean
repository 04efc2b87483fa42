import Verif.Proof.AxiMasterRead

/-! # AXI4 master: from the parts to the properties -/

namespace CocotbBus
open Coro Spec
variable {I O P α β : Type}

/-! ### Checks -/

theorem axiCheckLength_iff (l : Int) (burst : AxiBurst) :
    (LengthOk burst l → axiCheckLength l burst = .ok ()) ∧ (¬ LengthOk burst l → axiCheckLength l burst = .error .valueError) := by
  unfold axiCheckLength LengthOk
  by_cases h : l ≤ 0
  · rw [if_pos h]
    refine ⟨fun h' => ?_, fun _ => rfl⟩
    cases burst <;> simp only at h' <;> omega
  · rw [if_neg h]
    cases burst
    · simp only
      split
      · exact ⟨fun h' => (by omega), fun _ => rfl⟩
      · exact ⟨fun _ => rfl, fun h' => (by omega)⟩
    · simp only
      split
      · exact ⟨fun h' => (by omega), fun _ => rfl⟩
      · exact ⟨fun _ => rfl, fun h' => (by omega)⟩
    · simp only [List.mem_cons, List.not_mem_nil, or_false]
      split
      · exact ⟨fun _ => rfl, fun h' => absurd ‹_› h'⟩
      · exact ⟨fun h' => absurd h' ‹_›, fun _ => rfl⟩

theorem axiCheckSize_iff (s : Int) (W : Nat) :
    (SizeOk W s → axiCheckSize s W = .ok ()) ∧ (¬ SizeOk W s → axiCheckSize s W = .error .valueError) := by
  unfold axiCheckSize
  by_cases h : s > W
  · rw [if_pos h]
    refine ⟨?_, fun _ => rfl⟩
    rintro ⟨k, h1, h2⟩
    exfalso
    have : ((2 ^ k : Nat) : Int) ≤ (W : Int) := by exact_mod_cast h2
    rw [h1] at h
    push_cast at this
    omega
  · rw [if_neg h]
    by_cases h0 : s ≤ 0
    · rw [if_pos (.inl h0)]
      refine ⟨?_, fun _ => rfl⟩
      rintro ⟨k, h1, h2⟩
      exfalso
      have : 0 < (2 : Int) ^ k := Int.pow_pos (by decide)
      omega
    · have hp := andPred_iff s (by omega)
      by_cases h1 : andPred s = 0
      · rw [if_neg (by rintro (h | h); exact h0 h; exact h h1)]
        refine ⟨fun _ => rfl, fun h' => absurd ?_ h'⟩
        obtain ⟨k, hk⟩ := hp.1 h1
        refine ⟨k, hk, ?_⟩
        have : ((2 ^ k : Nat) : Int) ≤ (W : Int) := by push_cast; omega
        exact_mod_cast this
      · rw [if_pos (.inr h1)]
        refine ⟨?_, fun _ => rfl⟩
        rintro ⟨k, hk, _⟩
        exact absurd (hp.2 ⟨k, hk⟩) h1

theorem page4k_eq (a b : Nat) : page4k a = page4k b ↔ a / 4096 = b / 4096 := by
  unfold page4k
  omega

theorem inBeat_incr (size a len n b : Nat) (hs : 0 < size) : InBeat size .incr a len n b → b / size = a / size + n := by
  unfold InBeat beatAddr alignedAddr
  simp only
  rintro ⟨h1, h2⟩
  have hm := Nat.div_add_mod a size
  have hml := Nat.mod_lt a hs
  rw [Nat.mul_comm] at hm
  split at h1
  · rename_i h
    subst h
    rw [if_pos rfl] at h2
    apply Nat.div_eq_of_lt_le
    · rw [Nat.add_zero]; omega
    · rw [Nat.add_mul, Nat.one_mul, Nat.add_zero]; exact h2
  · rename_i h
    rw [if_neg h] at h2
    rw [show a / size * size + n * size = (a / size + n) * size by rw [Nat.add_mul], Nat.mul_div_cancel _ hs] at h2
    apply Nat.div_eq_of_lt_le
    · rw [Nat.add_mul]; exact h1
    · rw [Nat.add_mul _ 1, Nat.one_mul]; exact h2

theorem axiCheck4k_incr (a size len q : Nat) (hs : 0 < size) (hq : size * q = 4096) (hl : 0 < len) :
    (OnePage size .incr a len → axiCheck4k a .incr size len = .ok ()) ∧ (¬ OnePage size .incr a len → axiCheck4k a .incr size len = .error .valueError) := by
  have hpg : ∀ b, b / 4096 = b / size / q := by
    intro b
    rw [Nat.div_div_eq_div_mul, hq]
  have hlast : (a + size * (len - 1)) / size = a / size + (len - 1) := Nat.add_mul_div_left _ _ hs
  have key : OnePage size .incr a len ↔ a / 4096 = (a + size * (len - 1)) / 4096 := by
    constructor
    · intro h
      have := h (len - 1) (by omega) (a + size * (len - 1)) ?_
      · exact this.symm
      · unfold InBeat beatAddr alignedAddr
        simp only
        have hm := Nat.div_add_mod a size
        have hml := Nat.mod_lt a hs
        rw [Nat.mul_comm] at hm
        split
        · rename_i h0
          rw [h0, Nat.mul_zero]
          omega
        · rw [show a / size * size + (len - 1) * size = (a / size + (len - 1)) * size by rw [Nat.add_mul], Nat.mul_div_cancel _ hs, Nat.add_mul, Nat.mul_comm size]
          omega
    · intro h n hn b hb
      rw [hpg, hpg, hlast] at h
      rw [hpg, hpg, inBeat_incr size a len n b hs hb]
      apply Nat.le_antisymm
      · rw [h]; exact Nat.div_le_div_right (by omega)
      · exact Nat.div_le_div_right (by omega)
  unfold axiCheck4k
  simp only [ne_eq, page4k_eq, key]
  by_cases h : a / 4096 = (a + size * (len - 1)) / 4096
  · simp [h]
  · simp [h]

/-! ### One channel at a time -/

theorem bPhase_keeps (o : O) : Keeps (fun x => x = o) (bPhase : M AxIn O Unit) :=
  Keeps.bind (Keeps.loop _ (fun _ => Keeps.bind (Keeps.readOnly _) fun _ => Keeps.bind Keeps.inp fun _ =>
    Keeps.ite (Keeps.bind (Keeps.ofExcept _) fun _ => Keeps.pure _) (Keeps.bind Keeps.awaitEdge fun _ => Keeps.pure _)) ()) fun _ =>
    Keeps.bind Keeps.awaitEdge fun _ => Keeps.when _ (Keeps.raise _)

theorem joinSim_out (s : Sim I O) (s' : Sim I P) : (joinSim s s').out = (s.out, s'.out) := by unfold joinSim; split <;> rfl

theorem combine_ok_inv {x : M I O Unit} {y : M I P Unit} (s : Sim I (O × P)) (s' : Sim I (O × P)) (h : (combine x y s).2 = .ok () s') :
    ∃ s1 s2, (x ⟨s.phase, s.out.1, s.prev, s.cur, s.rest⟩).2 = .ok () s1 ∧ (y ⟨s.phase, s.out.2, s.prev, s.cur, s.rest⟩).2 = .ok () s2 ∧ s' = joinSim s1 s2 := by
  unfold combine at h
  generalize x ⟨s.phase, s.out.1, s.prev, s.cur, s.rest⟩ = r at *
  generalize y ⟨s.phase, s.out.2, s.prev, s.cur, s.rest⟩ = r' at *
  obtain ⟨t, e⟩ := r
  obtain ⟨t', e'⟩ := r'
  cases e <;> cases e' <;> simp [joinEnd] at h
  exact ⟨_, _, rfl, rfl, h.symm⟩

/-- the trace of a write: that of the two channels, then constant outputs -/
theorem axiWriteRun_trace (c : AxCfg) (a : Nat) (data : List Nat) (size : Nat) (burst : AxiBurst) (be : List (Option Nat)) (al dl : Nat) (sync : Bool)
    (s : Sim AxIn (AddrOut × WOut)) :
    let X := sendWriteAddress c a data.length burst size al sync
    let Y := sendWriteData c a data burst size dl be sync
    ∃ tb, (axiWriteRun c a data size burst be al dl sync s).1 = (combine X Y s).1 ++ tb ∧
      (tb ≠ [] → ∃ s1 s2, (X ⟨s.phase, s.out.1, s.prev, s.cur, s.rest⟩).2 = .ok () s1 ∧ (Y ⟨s.phase, s.out.2, s.prev, s.cur, s.rest⟩).2 = .ok () s2 ∧
        ∀ q ∈ tb, q.1 = (s1.out, s2.out)) ∧
      (∀ z, result (axiWriteRun c a data size burst be al dl sync s) = some (.ok z) →
        ∃ s1 s2, (X ⟨s.phase, s.out.1, s.prev, s.cur, s.rest⟩).2 = .ok () s1 ∧ (Y ⟨s.phase, s.out.2, s.prev, s.cur, s.rest⟩).2 = .ok () s2) := by
  intro X Y
  have hrr : axiWriteRun c a data size burst be al dl sync s = Res.andThen (combine X Y s) (fun _ => bPhase) := by
    rw [axiWriteRun_eq, bind_run]
  have hxy : combine X Y s = ((combine X Y s).1, (combine X Y s).2) := rfl
  cases he : (combine X Y s).2 with
  | err e s' =>
    refine ⟨[], by rw [hrr, hxy, he, andThen_err]; simp, by simp, ?_⟩
    intro z hz
    rw [hrr, hxy, he, andThen_err] at hz
    simp [result] at hz
  | blocked s' =>
    refine ⟨[], by rw [hrr, hxy, he, andThen_blocked]; simp, by simp, ?_⟩
    intro z hz
    rw [hrr, hxy, he, andThen_blocked] at hz
    simp [result] at hz
  | ok u s' =>
    obtain ⟨s1, s2, h1, h2, h3⟩ := combine_ok_inv s s' he
    refine ⟨(bPhase s').1, by rw [hrr, hxy, he, andThen_ok], fun _ => ⟨s1, s2, h1, h2, ?_⟩, fun _ _ => ⟨s1, s2, h1, h2⟩⟩
    intro q hq
    have := (bPhase_keeps (s1.out, s2.out) s' (by rw [h3, joinSim_out])).1 q hq
    exact this

theorem axiWriteRun_aw (c : AxCfg) (a : Nat) (data : List Nat) (size : Nat) (burst : AxiBurst) (be : List (Option Nat)) (al dl : Nat) (sync : Bool)
    (hf : AddrFits c a data.length size) (hsz : 0 < size) (s : Sim AxIn (AddrOut × WOut)) (hs : sync = true ∨ s.phase ≠ .ro) (h0 : s.out.1.valid = .zero) :
    let r := axiWriteRun c a data size burst be al dl sync s
    ∃ acc, (awStream c).Once (addrReq c a data.length size burst) (al + if sync then 1 else 0) (awTrace r.1) acc ∧
      (∀ z, result r = some (.ok z) → acc = true) := by
  intro r
  have hA := sendWriteAddress_offers c a data.length size al burst sync hf hsz ⟨s.phase, s.out.1, s.prev, s.cur, s.rest⟩ hs h0
  have gA := sendWriteAddress_good c a data.length size al burst sync
  have gW := sendWriteData_good c a data burst size dl be sync
  obtain ⟨u, hu1, hu2, hu3⟩ := combine_left gA gW s
  obtain ⟨qa, qb, qe⟩ := hA.request
  obtain ⟨tb, ht1, ht2, ht3⟩ := axiWriteRun_trace c a data size burst be al dl sync s
  generalize sendWriteAddress c a data.length burst size al sync = X at *
  generalize sendWriteData c a data burst size dl be sync = Y at *
  refine ⟨(X ⟨s.phase, s.out.1, s.prev, s.cur, s.rest⟩).2.isOk, ⟨(X ⟨s.phase, s.out.1, s.prev, s.cur, s.rest⟩).1, u ++ awTrace tb, ?_, qa, ?_, ?_⟩, ?_⟩
  · show awTrace r.1 = _
    rw [ht1, ← List.append_assoc, ← hu1, awTrace, List.map_append]
    rfl
  · intro hf
    have hb : ∃ s', (X ⟨s.phase, s.out.1, s.prev, s.cur, s.rest⟩).2 = .blocked s' := by
      cases he : (X ⟨s.phase, s.out.1, s.prev, s.cur, s.rest⟩).2 with
      | ok _ s' => rw [he] at hf; cases hf
      | err e s' => exact absurd he (qe e s')
      | blocked s' => exact ⟨s', rfl⟩
    obtain ⟨s', hs'⟩ := hb
    have htb : tb = [] := by
      by_contra h
      obtain ⟨s1, s2, h1, _⟩ := ht2 h
      rw [hs'] at h1; cases h1
    rw [hu3 s' hs', htb]
    rfl
  · intro q hq
    rcases List.mem_append.1 hq with hq | hq
    · cases he : (X ⟨s.phase, s.out.1, s.prev, s.cur, s.rest⟩).2 with
      | ok _ s' =>
        rw [hu2 q hq, he]
        have := (qb _ s' he).2
        simp [End.sim, awStream, this]
      | err e s' => exact absurd he (qe e s')
      | blocked s' => rw [hu3 s' he] at hq; cases hq
    · obtain ⟨p, hp, rfl⟩ := List.mem_map.1 hq
      obtain ⟨s1, s2, h1, _, h3⟩ := ht2 (List.ne_nil_of_mem hp)
      have := (qb _ s1 h1).2
      simp [h3 p hp, awStream, this]
  · intro z hz
    obtain ⟨s1, s2, h1, _⟩ := ht3 z hz
    rw [h1]; rfl

theorem axiWriteRun_w (c : AxCfg) (a : Nat) (data : List Nat) (size : Nat) (burst : AxiBurst) (be : List (Option Nat)) (al dl : Nat) (sync : Bool)
    (beats : List (Nat × Nat)) (hb : axiWriteBeats c.dataBytes size a burst data be = .ok beats)
    (hne : beats ≠ []) (hl : ∀ x ∈ beats, x.1 < 2 ^ (8 * c.dataBytes) ∧ x.2 < 2 ^ c.dataBytes) (hd : dl = 0 ∨ beats.length = 1)
    (s : Sim AxIn (AddrOut × WOut)) (hs : sync = true ∨ s.phase ≠ .ro) (h0 : s.out.2.valid = .zero) :
    let r := axiWriteRun c a data size burst be al dl sync s
    ∃ done, (wStream c).Burst (wReqs c beats) ((dl + if sync then 1 else 0) :: List.replicate (beats.length - 1) 0) (wTrace r.1) done ∧
      (∀ z, result r = some (.ok z) → done = true) := by
  intro r
  have hW := sendBeats_first c dl sync beats hd hne hl ⟨s.phase, s.out.2, s.prev, s.cur, s.rest⟩ hs h0
  have gA := sendWriteAddress_good c a data.length size al burst sync
  have gW := sendWriteData_good c a data burst size dl be sync
  rw [← sendWriteData_eq c a data burst size dl be sync beats hb] at hW
  obtain ⟨v, hv1, hv2, hv3⟩ := combine_right gA gW s
  obtain ⟨tb, ht1, ht2, ht3⟩ := axiWriteRun_trace c a data size burst be al dl sync s
  obtain ⟨wa, we, wb⟩ := hW.burst (by simp [wReqs_length]; have := List.length_pos_iff.2 hne; omega) v hv2 hv3 (fun s' h => by simp [wStream, h.2])
  generalize sendWriteAddress c a data.length burst size al sync = X at *
  generalize sendWriteData c a data burst size dl be sync = Y at *
  refine ⟨(Y ⟨s.phase, s.out.2, s.prev, s.cur, s.rest⟩).2.isOk, ?_, ?_⟩
  · have htr : wTrace r.1 = ((Y ⟨s.phase, s.out.2, s.prev, s.cur, s.rest⟩).1 ++ v) ++ wTrace tb := by
      show wTrace (axiWriteRun c a data size burst be al dl sync s).1 = _
      rw [ht1, ← hv1, wTrace, List.map_append]
      rfl
    rw [htr]
    by_cases htb : tb = []
    · rw [htb]; simpa [wTrace] using wa
    · obtain ⟨s1, s2, h1, h2, h3⟩ := ht2 htb
      rw [h2] at wa ⊢
      refine Stream.Burst.extend wa _ ?_
      intro q hq
      obtain ⟨p, hp, rfl⟩ := List.mem_map.1 hq
      have := (wb s2 h2).2
      simp [h3 p hp, wStream, this]
  · intro z hz
    obtain ⟨s1, s2, _, h2⟩ := ht3 z hz
    rw [h2]; rfl

theorem axiChecks_cases (c : AxCfg) (a : Nat) (len : Int) (size : Option Int) (burst : AxiBurst) :
    (∃ sz, axiChecks c a len size burst = .ok sz) ∨ axiChecks c a len size burst = .error .valueError := by
  unfold axiChecks
  have h1 : (∃ sz, axiSize size c.dataBytes = .ok sz) ∨ axiSize size c.dataBytes = .error .valueError := by
    unfold axiSize
    cases size with
    | none => exact .inl ⟨_, rfl⟩
    | some s =>
      by_cases h : SizeOk c.dataBytes s
      · left; simp only; rw [(axiCheckSize_iff s _).1 h]; exact ⟨_, rfl⟩
      · right; simp only; rw [(axiCheckSize_iff s _).2 h]; rfl
  rcases h1 with ⟨sz, h1⟩ | h1
  · rw [h1]
    by_cases h : LengthOk burst len
    · have h3 : axiCheck4k a burst sz len.toNat = .ok () ∨ axiCheck4k a burst sz len.toNat = .error .valueError := by
        unfold axiCheck4k
        cases burst
        · exact .inl rfl
        · simp only; split
          · exact .inr rfl
          · exact .inl rfl
        · exact .inl rfl
      rcases h3 with h3 | h3
      · left; exact ⟨sz, by show (axiCheckLength len burst >>= _) = _; rw [(axiCheckLength_iff len burst).1 h]; show (axiCheck4k _ _ _ _ >>= _) = _; rw [h3]; rfl⟩
      · right; show (axiCheckLength len burst >>= _) = _; rw [(axiCheckLength_iff len burst).1 h]; show (axiCheck4k _ _ _ _ >>= _) = _; rw [h3]; rfl
    · right; show (axiCheckLength len burst >>= _) = _; rw [(axiCheckLength_iff len burst).2 h]; rfl
  · right; rw [h1]; rfl

theorem lengthOk_pos (burst : AxiBurst) (l : Int) (h : LengthOk burst l) : 0 < l := by
  unfold LengthOk at h
  cases burst <;> simp only at h <;> omega

theorem dvd_4096 (k j : Nat) (h : 2 ^ k ≤ 2 ^ j) (hj : j ≤ 12) : ∃ q, 2 ^ k * q = 4096 := by
  have hk : k ≤ j := (Nat.pow_le_pow_iff_right (by decide)).1 h
  refine ⟨2 ^ (12 - k), ?_⟩
  rw [← Nat.pow_add, show k + (12 - k) = 12 by omega]

theorem axiChecks_ok (c : AxCfg) (a : Nat) (len : Int) (size : Option Int) (burst : AxiBurst) (sz j : Nat) (hW : c.dataBytes = 2 ^ j) (hj : j ≤ 12) :
    axiChecks c a len size burst = .ok sz ↔ Legal c a len size burst sz := by
  -- the size
  have h1 : axiSize size c.dataBytes = .ok sz ↔ BeatSize c.dataBytes size sz := by
    unfold axiSize BeatSize
    cases size with
    | none => simp only [Except.ok.injEq]; exact eq_comm
    | some s =>
      simp only
      by_cases h : SizeOk c.dataBytes s
      · rw [(axiCheckSize_iff s _).1 h]
        obtain ⟨k, hk, _⟩ := h
        have : s = (s.toNat : Int) := by rw [hk]; exact (Int.toNat_of_nonneg (Int.le_of_lt (Int.pow_pos (by decide)))).symm
        show Except.ok s.toNat = _ ↔ _
        simp only [Except.ok.injEq]
        constructor
        · intro h'; exact ⟨⟨k, hk, ‹_›⟩, by omega⟩
        · rintro ⟨_, h'⟩; omega
      · rw [(axiCheckSize_iff s _).2 h]
        constructor
        · intro h'; cases h'
        · rintro ⟨h', _⟩; exact absurd h' h
  have hpow : BeatSize c.dataBytes size sz → ∃ k, sz = 2 ^ k ∧ 2 ^ k ≤ 2 ^ j := by
    cases size with
    | none => intro h; exact ⟨j, by rw [← hW]; exact h, Nat.le_refl _⟩
    | some s =>
      rintro ⟨⟨k, h1, h2⟩, h3⟩
      refine ⟨k, ?_, by rw [← hW]; exact h2⟩
      have : (sz : Int) = ((2 ^ k : Nat) : Int) := by rw [← h3, h1]; push_cast; rfl
      exact_mod_cast this
  unfold Legal
  rw [← h1] at hpow ⊢
  unfold axiChecks
  constructor
  · intro h
    have hx : ∃ sz', axiSize size c.dataBytes = .ok sz' := by
      cases hs : axiSize size c.dataBytes with
      | ok s' => exact ⟨s', rfl⟩
      | error e => rw [hs] at h; cases h
    obtain ⟨sz', hs⟩ := hx
    rw [hs] at h
    have hl : LengthOk burst len := by
      by_contra hl
      rw [show (Except.ok sz' >>= fun sz => (axiCheckLength len burst >>= fun _ => axiCheck4k a burst sz len.toNat >>= fun _ => pure sz)) =
        (axiCheckLength len burst >>= fun _ => axiCheck4k a burst sz' len.toNat >>= fun _ => pure sz') from rfl, (axiCheckLength_iff len burst).2 hl] at h
      cases h
    rw [show (Except.ok sz' >>= fun sz => (axiCheckLength len burst >>= fun _ => axiCheck4k a burst sz len.toNat >>= fun _ => pure sz)) =
        (axiCheckLength len burst >>= fun _ => axiCheck4k a burst sz' len.toNat >>= fun _ => pure sz') from rfl, (axiCheckLength_iff len burst).1 hl] at h
    cases h4 : axiCheck4k a burst sz' len.toNat with
    | error e =>
      rw [show (Except.ok () >>= fun _ => axiCheck4k a burst sz' len.toNat >>= fun _ => pure sz') =
        (axiCheck4k a burst sz' len.toNat >>= fun _ => (pure sz' : Except PyErr Nat)) from rfl, h4] at h
      cases h
    | ok u =>
      rw [show (Except.ok () >>= fun _ => axiCheck4k a burst sz' len.toNat >>= fun _ => pure sz') =
        (axiCheck4k a burst sz' len.toNat >>= fun _ => (pure sz' : Except PyErr Nat)) from rfl, h4] at h
      have hz : sz' = sz := by
        have : (Except.ok sz' : Except PyErr Nat) = .ok sz := h
        injection this
      subst hz
      refine ⟨hs, hl, ?_⟩
      rintro rfl
      by_contra hp
      obtain ⟨k, rfl, hk⟩ := hpow hs
      obtain ⟨q, hq⟩ := dvd_4096 k j hk hj
      have := (axiCheck4k_incr a (2 ^ k) len.toNat q (Nat.two_pow_pos k) hq (by have := lengthOk_pos _ _ hl; omega)).2 hp
      rw [this] at h4; cases h4
  · rintro ⟨hs, hl, hp⟩
    have h4 : axiCheck4k a burst sz len.toNat = .ok () := by
      obtain ⟨k, rfl, hk⟩ := hpow hs
      obtain ⟨q, hq⟩ := dvd_4096 k j hk hj
      cases burst
      · rfl
      · exact (axiCheck4k_incr a (2 ^ k) len.toNat q (Nat.two_pow_pos k) hq (by have := lengthOk_pos _ _ hl; omega)).1 (hp rfl)
      · rfl
    rw [hs]
    show (axiCheckLength len burst >>= _) = _
    rw [(axiCheckLength_iff len burst).1 hl]
    show (axiCheck4k _ _ _ _ >>= _) = _
    rw [h4]
    rfl

theorem Legal.pow {c : AxCfg} {a : Nat} {len : Int} {size : Option Int} {burst : AxiBurst} {sz j : Nat} (h : Legal c a len size burst sz) (hW : c.dataBytes = 2 ^ j) :
    ∃ k, sz = 2 ^ k ∧ k ≤ j := by
  obtain ⟨h, _⟩ := h
  cases size with
  | none => exact ⟨j, by rw [← hW]; exact h, Nat.le_refl _⟩
  | some s =>
    obtain ⟨⟨k, h1, h2⟩, h3⟩ := h
    refine ⟨k, ?_, (Nat.pow_le_pow_iff_right (a := 2) (by decide)).1 (by rw [← hW]; exact h2)⟩
    have : (sz : Int) = ((2 ^ k : Nat) : Int) := by rw [← h3, h1]; push_cast; rfl
    exact_mod_cast this

/-- the standard widths -/
theorem Legal.fits {c : AxCfg} {a : Nat} {len : Int} {size : Option Int} {burst : AxiBurst} {sz j : Nat} (h : Legal c a len size burst sz) (hW : c.dataBytes = 2 ^ j)
    (hj : j ≤ 7) (hlw : c.lenW = 8) (hsw : c.sizeW = 3) (hbw : c.burstW = 2) (ha : a < 2 ^ c.addrW) : AddrFits c a len.toNat sz := by
  obtain ⟨k, rfl, hk⟩ := Legal.pow h hW
  refine ⟨ha, fun _ => ⟨by omega, ?_, ?_⟩⟩
  · rw [hlw]
    have := h.2.1
    unfold LengthOk at this
    cases burst <;> simp only at this <;> omega
  · rw [hsw, Nat.log2_two_pow]
    omega

/-! ### The slave's view -/

theorem Stream.Request.xfers {V : Stream I O P} {p : P} {n : Nat} {t : List (O × I)} (h : V.Request p n t true) :
    ∃ pre q, t = pre ++ [q] ∧ (∀ x ∈ pre, V.xfer x = false) ∧ V.xfer q = true ∧ V.payload q.1 = p := by
  obtain ⟨idle, held, h1, h2, h3⟩ := h
  simp only [if_true] at h3
  obtain ⟨_, q, h4, h5, h6, h7⟩ := h3
  refine ⟨idle ++ held, q, h4, ?_, by simp [Stream.xfer, h5, h7], h6⟩
  intro x hx
  rcases List.mem_append.1 hx with hx | hx
  · simp [Stream.xfer, h1 x hx]
  · simp [Stream.xfer, (h2 x hx).2.2]

theorem Stream.Once.taken_eq {V : Stream I O P} {p : P} {n : Nat} {t : List (O × I)} (h : V.Once p n t true) : V.taken t = [p] := by
  obtain ⟨t1, t2, h1, h2, h3, h4⟩ := h
  obtain ⟨pre, q, e1, e2, e3, e4⟩ := Stream.Request.xfers h2
  rw [h1, e1, taken_append, taken_append, taken_none V pre e2, taken_none V t2 (fun x hx => by simp [Stream.xfer, h4 x hx])]
  simp [Stream.taken, e3, e4]

theorem after_request {V : Stream I O P} {p : P} {n : Nat} {t1 t2 : List (O × I)} (h : V.Request p n t1 true) : V.after (t1 ++ t2) = t2 := by
  obtain ⟨pre, q, e1, e2, e3, e4⟩ := Stream.Request.xfers h
  rw [e1]
  unfold Stream.after
  rw [List.append_assoc, List.dropWhile_append_of_pos (fun x hx => by simp [e2 x hx])]
  simp [e3]

theorem after_request_none {V : Stream I O P} {p : P} {n : Nat} {t1 : List (O × I)} (h : V.Request p n t1 false) : V.after t1 = [] := by
  obtain ⟨idle, held, h1, h2, h3⟩ := h
  simp only [Bool.false_eq_true, if_false] at h3
  have hx : ∀ x ∈ t1, V.xfer x = false := by
    intro x hx
    rcases h3 with ⟨h3, _⟩ | ⟨h3, _⟩
    · rw [h3] at hx; simp [Stream.xfer, h1 x hx]
    · rw [h3] at hx
      rcases List.mem_append.1 hx with hx | hx
      · simp [Stream.xfer, h1 x hx]
      · simp [Stream.xfer, (h2 x hx).2.2]
  unfold Stream.after
  have := List.dropWhile_append_of_pos (p := fun q => !V.xfer q) (l₁ := t1) (l₂ := []) (fun x hx' => by simp [hx x hx'])
  rw [List.append_nil] at this
  rw [this]
  rfl

theorem Stream.Burst.taken_eq {V : Stream I O P} {l : List P} {ns : List Nat} {t : List (O × I)} (h : V.Burst l ns t true) : V.taken t = l := by
  obtain ⟨t1, t2, h1, h2, _, h3, h4⟩ := h
  simp only [if_true] at h4
  rw [h1, taken_append, h4.1, taken_none V t2 (fun x hx => by simp [Stream.xfer, h3 x hx]), List.append_nil]

theorem decode_addrReq (c : AxCfg) (a len size k : Nat) (burst : AxiBurst) (hf : AddrFits c a len size) (hk : size = 2 ^ k) (hl : 0 < len)
    (hlite : c.full = false → size = c.dataBytes ∧ burst = .incr ∧ len = 1) :
    (addrReq c a len size burst).decode c.dataBytes = (a, size, burst, len) := by
  obtain ⟨ha, hfull⟩ := hf
  unfold addrReq AddrReq.decode
  cases hc : c.full with
  | false =>
    obtain ⟨h1, h2, h3⟩ := hlite hc
    simp only [Bool.false_eq_true, if_false]
    rw [bitsToNat_natToBits, Nat.mod_eq_of_lt ha, h1, h2, h3]
  | true =>
    obtain ⟨h1, h2, h3⟩ := hfull hc
    have h4 : 2 ^ 2 ≤ 2 ^ c.burstW := Nat.pow_le_pow_right (by decide) h1
    simp only [if_true]
    rw [bitsToNat_natToBits, bitsToNat_natToBits, bitsToNat_natToBits, bitsToNat_natToBits, Nat.mod_eq_of_lt ha, Nat.mod_eq_of_lt h2, Nat.mod_eq_of_lt h3, hk,
      Nat.log2_two_pow, Nat.sub_add_cancel hl]
    cases burst
    · rw [Nat.mod_eq_of_lt (by simp only [burstCode]; omega)]; rfl
    · rw [Nat.mod_eq_of_lt (by simp only [burstCode]; omega)]; rfl
    · rw [Nat.mod_eq_of_lt (by simp only [burstCode]; omega)]; rfl

theorem wReqs_decode (c : AxCfg) (l : List (Nat × Nat)) (hl : ∀ x ∈ l, x.1 < 2 ^ (8 * c.dataBytes) ∧ x.2 < 2 ^ c.dataBytes) :
    (wReqs c l).map (fun w => (bitsToNat w.data, bitsToNat w.strb)) = l := by
  induction l with
  | nil => rfl
  | cons q r ih =>
    obtain ⟨d, s⟩ := q
    obtain ⟨h1, h2⟩ := hl (d, s) List.mem_cons_self
    rw [wReqs, List.map_cons, ih (fun x hx => hl x (List.mem_cons_of_mem _ hx)), bitsToNat_natToBits, bitsToNat_natToBits, Nat.mod_eq_of_lt h1, Nat.mod_eq_of_lt h2]

theorem busStore_eq (c : AxCfg) (a len size k : Nat) (burst : AxiBurst) (hf : AddrFits c a len size) (hk : size = 2 ^ k) (hl : 0 < len)
    (hlite : c.full = false → size = c.dataBytes ∧ burst = .incr ∧ len = 1)
    (beats : List (Nat × Nat)) (hb : ∀ x ∈ beats, x.1 < 2 ^ (8 * c.dataBytes) ∧ x.2 < 2 ^ c.dataBytes) (t : List ((AddrOut × WOut) × AxIn))
    (h1 : (awStream c).taken (awTrace t) = [addrReq c a len size burst]) (h2 : (wStream c).taken (wTrace t) = wReqs c beats) (mem : Nat → Byte) :
    busStore c t mem = axiStoreAll c.dataBytes size burst a len 0 beats mem := by
  unfold busStore
  rw [h1, h2]
  simp only
  rw [decode_addrReq c a len size k burst hf hk hl hlite, wReqs_decode c beats hb]

/-! ### API level -/

theorem axiWriteBeats_ok (size m a : Nat) (hs : 0 < size) (hm : 0 < m) (burst : AxiBurst) (data : List Nat) (be : List (Option Nat)) (hbe : be ≠ []) :
    ∃ beats, axiWriteBeats (size * m) size a burst data be = .ok beats ∧ beats.length = data.length ∧
      (∀ x ∈ beats, x.1 < 2 ^ (8 * (size * m)) ∧ x.2 < 2 ^ (size * m)) := by
  obtain ⟨st, hst, hstl, hstb⟩ := axiStrobes_spec size data.length be hbe
  refine ⟨_, by rw [axiWriteBeats, hst]; rfl, ?_, ?_⟩
  · rw [axiLanes_length, List.length_zip, axiShifted_length, axiShifted_length, hstl, Nat.min_self]
  · apply axiLanes_fits size m hs hm
    rw [div_mod_block]
    exact Nat.mod_lt _ hm

theorem axiWrite_legal (c : AxCfg) (hc : Standard c) (a : Nat) (value : List Nat) (size : Option Int) (burst : AxiBurst) (be : List (Option Nat)) (al dl : Nat) (sync : Bool)
    (sz : Nat) (hl : Legal c a value.length size burst sz) : axiWrite c a value size burst be al dl sync = axiWriteRun c a value sz burst be al dl sync := by
  obtain ⟨⟨j, hj, hW⟩, _⟩ := hc
  unfold axiWrite
  rw [(axiChecks_ok c a value.length size burst sz j hW (by omega)).2 hl]
  rfl

theorem axiRead_legal (c : AxCfg) (hc : Standard c) (a : Nat) (length : Int) (size : Option Int) (burst : AxiBurst) (rr sync : Bool)
    (sz : Nat) (hl : Legal c a length size burst sz) : axiRead c a length size burst rr sync = axiReadRun c a length.toNat sz burst rr sync := by
  obtain ⟨⟨j, hj, hW⟩, _⟩ := hc
  unfold axiRead
  rw [(axiChecks_ok c a length size burst sz j hW (by omega)).2 hl]
  rfl

/-- what a legal request means -/
theorem Legal.facts {c : AxCfg} {a : Nat} {len : Int} {size : Option Int} {burst : AxiBurst} {sz : Nat} (hl : Legal c a len size burst sz) (hc : Standard c)
    (ha : a < 2 ^ c.addrW) : AddrFits c a len.toNat sz ∧ 0 < sz ∧ 0 < len.toNat ∧ ∃ k m, sz = 2 ^ k ∧ 0 < m ∧ c.dataBytes = sz * m := by
  obtain ⟨⟨j, hj, hW⟩, h1, h2, h3⟩ := hc
  obtain ⟨k, hk, hkj⟩ := Legal.pow hl hW
  refine ⟨Legal.fits hl hW hj h1 h2 h3 ha, by rw [hk]; exact Nat.two_pow_pos k, ?_, k, 2 ^ (j - k), hk, Nat.two_pow_pos _, ?_⟩
  · have := lengthOk_pos _ _ hl.2.1; omega
  · rw [hW, hk, ← Nat.pow_add, show k + (j - k) = j by omega]

theorem axiWriteRun_good (c : AxCfg) (a : Nat) (data : List Nat) (size : Nat) (burst : AxiBurst) (be : List (Option Nat)) (al dl : Nat) (sync : Bool) :
    Good (axiWriteRun c a data size burst be al dl sync) := by
  rw [axiWriteRun_eq]
  exact Good.bind (combine_good (sendWriteAddress_good _ _ _ _ _ _ _) (sendWriteData_good _ _ _ _ _ _ _ _)) fun _ => bPhase_good

theorem rBody_good (c : AxCfg) (size : Nat) (burst : AxiBurst) (st : RState) : Good (rBody c size burst st) :=
  Good.bind (Good.readOnly _) fun _ => Good.bind Good.inp fun _ => Good.ite (Good.bind (Good.ofExcept _) fun _ => Good.bind (Good.ofExcept _) fun _ =>
    Good.ite (Good.pure _) (Good.bind Good.awaitEdge fun _ => Good.pure _)) (Good.bind Good.awaitEdge fun _ => Good.pure _)

theorem axiReadRun_good (c : AxCfg) (a len size : Nat) (burst : AxiBurst) (rr sync : Bool) : Good (axiReadRun c a len size burst rr sync) :=
  Good.bind (sendReadAddress_good _ _ _ _ _ _) fun _ => Good.bind (Good.loop _ (rBody_consumes _ _ _) (rBody_good _ _ _) _) fun _ =>
    Good.bind Good.awaitEdge fun _ => Good.ofExcept _

/-- a coroutine that still waits has seen all edges -/
theorem Good.all_seen {x : M I O α} (h : Good x) (s : Sim I O) (hr : result (x s) = none) : (x s).1.map Prod.snd = (s.cur :: s.rest).dropLast := by
  obtain ⟨h1, h2⟩ := h s
  cases he : (x s).2 with
  | ok a s' => simp [result, he] at hr
  | err e s' => simp [result, he] at hr
  | blocked s' =>
    have := h2 s' he
    rw [he] at h1
    simp only [End.sim, this] at h1
    rw [h1, List.dropLast_concat]

end CocotbBus
