import Verif.Spec.AxiQueue

/-!
# Invariants of the locks of `AXI4Master`
-/

namespace CocotbBus
open Spec

/-! ### Logs -/

theorem addresses_append (a b : List AqEv) : addresses (a ++ b) = addresses a ++ addresses b := by simp [addresses]
theorem beats_append (a b : List AqEv) : beats (a ++ b) = beats a ++ beats b := by simp [beats]
theorem responses_append (a b : List AqEv) : responses (a ++ b) = responses a ++ responses b := by simp [responses]
theorem callLens_append (a b : List AqOp) : callLens (a ++ b) = callLens a ++ callLens b := by simp [callLens]
theorem slaveResponses_append (a b : List AqOp) : slaveResponses (a ++ b) = slaveResponses a ++ slaveResponses b := by simp [slaveResponses]

theorem bursts_append (l m : List Nat) : ∀ t, bursts t (l ++ m) = bursts t l ++ bursts (t + l.length) m := by
  induction l with
  | nil => intro t; simp [bursts]
  | cons n r ih => intro t; simp only [List.cons_append, bursts, ih, List.append_assoc, List.length_cons]; congr 3; omega

/-- The first `j` beats, none of them the last. -/
def burstPart (t j : Nat) : List (Nat × Nat × Bool) := (List.range j).map fun k => (t, k, false)

theorem burst_split (t : Nat) : ∀ (j k n : Nat), j + 1 ≤ n → burst t k n = (List.range' k j).map (fun i => (t, i, false)) ++ burst t (k + j) (n - j) := by
  intro j
  induction j with
  | zero => intro k n h; simp
  | succ j ih =>
    intro k n h
    obtain ⟨n, rfl⟩ : ∃ m, n = m + 2 := ⟨n - 2, by omega⟩
    rw [burst.eq_3 _ _ _ (by omega), ih (k + 1) (n + 1) (by omega), List.range'_succ]
    simp only [List.map_cons, List.cons_append]
    congr 3 <;> omega

theorem burst_part (t j n : Nat) (h : j + 1 ≤ n) : burst t 0 n = burstPart t j ++ burst t j (n - j) := by
  rw [burst_split t j 0 n h, burstPart, List.range_eq_range']; simp

theorem burst_last (t j : Nat) : burst t 0 (j + 1) = burstPart t j ++ [(t, j, true)] := by
  rw [burst_part t j (j + 1) (by omega)]; simp [burst]

/-! ### Executions -/

theorem Aq.run_append (s : Aq) (a b : List AqOp) : s.run (a ++ b) = (s.run a).bind fun s' => s'.run b := by
  induction a generalizing s with
  | nil => rfl
  | cons o r ih =>
    simp only [List.cons_append, Aq.run]
    cases s.step o with
    | none => rfl
    | some s' => exact ih s'

/-- Induction over executions, one operation at a time. -/
theorem Aq.induct {P : List AqOp → Aq → Prop} (h0 : P [] Aq.init)
    (hs : ∀ pre s o s', P pre s → Aq.init.run pre = some s → s.step o = some s' → P (pre ++ [o]) s')
    {ops : List AqOp} {s : Aq} (hr : Aq.init.run ops = some s) : P ops s := by
  have gen : ∀ (ops pre : List AqOp) (s s' : Aq), P pre s → Aq.init.run pre = some s → s.run ops = some s' → P (pre ++ ops) s' := by
    intro ops
    induction ops with
    | nil => intro pre s s' hp _ h; cases h; simpa using hp
    | cons o r ih =>
      intro pre s s' hp hpre h
      simp only [Aq.run] at h
      cases ho : s.step o with
      | none => rw [ho] at h; cases h
      | some t =>
        rw [ho] at h
        have hrun : Aq.init.run (pre ++ [o]) = some t := by rw [Aq.run_append, hpre]; simp [Aq.run, ho]
        have := ih (pre ++ [o]) t s' (hs pre s o t hp hpre ho) hrun h
        simpa using this
  exact gen ops [] Aq.init s h0 rfl hr

/-- What holds of every execution: `a` addresses sent or refused, `wd` bursts sent. -/
structure AqInv (ops : List AqOp) (s : Aq) (a wd : Nat) : Prop where
  lens : s.lens = callLens ops
  pos : ∀ n ∈ s.lens, 0 < n
  ha : a ≤ s.lens.length
  hw : wd ≤ s.lens.length
  aw : s.aw = List.range' a (s.lens.length - a)
  w : s.w = List.range' wd (s.lens.length - wd)
  sorted : s.awEnded.Pairwise (· < ·)
  below : ∀ t ∈ s.awEnded, t < a
  addr : addresses s.log = s.awEnded
  wEnded : s.wEnded = List.range wd
  beatLt : wd < s.lens.length → s.beat < s.lens.getD wd 0
  beat0 : wd = s.lens.length → s.beat = 0
  beats : beats s.log = bursts 0 (s.lens.take wd) ++ burstPart wd s.beat
  ended : endedBursts s.log = wd
  resp : (responses s.log).map (·.1) ++ s.b = s.awEnded.filter (· < wd)

theorem filter_lt_append (l : List Nat) (a wd : Nat) :
    (l ++ [a]).filter (· < wd) = l.filter (· < wd) ++ if a < wd then [a] else [] := by
  rw [List.filter_append]; congr 1; by_cases h : a < wd <;> simp [h]

theorem filter_lt_succ : ∀ (l : List Nat) (wd : Nat), l.Pairwise (· < ·) →
    l.filter (· < wd + 1) = l.filter (· < wd) ++ if wd ∈ l then [wd] else []
  | [], wd, _ => by simp
  | x :: r, wd, h => by
    have ih := filter_lt_succ r wd (List.pairwise_cons.1 h).2
    have hx := (List.pairwise_cons.1 h).1
    rcases Nat.lt_trichotomy x wd with hlt | heq | hgt
    · have : x < wd + 1 := by omega
      have hne : ¬ wd = x := by omega
      simp [hlt, this, ih, List.mem_cons, hne]
    · subst heq
      have h1 : r.filter (· < x) = [] := by
        rw [List.filter_eq_nil_iff]; intro y hy; have := hx y hy; simp; omega
      have h2 : x ∉ r := fun hm => by have := hx x hm; omega
      rw [h1, if_neg h2] at ih
      simp [ih, h1]
    · have h1 : ¬ x < wd + 1 := by omega
      have h2 : ¬ x < wd := by omega
      have hne : ¬ wd = x := by omega
      simp [h1, h2, ih, List.mem_cons, hne]

theorem aqInv_init : AqInv [] Aq.init 0 0 where
  lens := rfl
  pos := by intro n h; cases h
  ha := Nat.le_refl _
  hw := Nat.le_refl _
  aw := rfl
  w := rfl
  sorted := List.Pairwise.nil
  below := by intro t h; cases h
  addr := rfl
  wEnded := rfl
  beatLt := by intro h; cases h
  beat0 := fun _ => rfl
  beats := rfl
  ended := rfl
  resp := rfl

theorem endedBursts_append (a b : List AqEv) : endedBursts (a ++ b) = endedBursts a + endedBursts b := by
  simp [endedBursts, beats_append]

theorem getD_append_lt {l m : List Nat} {i : Nat} (h : i < l.length) : (l ++ m).getD i 0 = l.getD i 0 := by
  simp [List.getD, List.getElem?_append_left h]

theorem AqInv.step {ops : List AqOp} {s s' : Aq} {a wd : Nat} (h : AqInv ops s a wd) (o : AqOp) (hpos : ∀ n, o = .call n → 0 < n)
    (hs : s.step o = some s') : ∃ a' wd', AqInv (ops ++ [o]) s' a' wd' ∧ ((o ≠ .awRaise → s.awEnded = List.range a → s'.awEnded = List.range a')) := by
  cases o with
  | call n =>
    cases hs
    refine ⟨a, wd, ?_, fun _ h => h⟩
    have hn := hpos n rfl
    refine ⟨?_, ?_, ?_, ?_, ?_, ?_, h.sorted, h.below, h.addr, h.wEnded, ?_, ?_, ?_, h.ended, h.resp⟩
    · simp [callLens_append, h.lens]; rfl
    · intro m hm
      rcases List.mem_append.1 hm with hm | hm
      · exact h.pos m hm
      · rw [List.mem_singleton.1 hm]; exact hn
    · have := h.ha; simp; omega
    · have := h.hw; simp; omega
    · have := h.ha
      show s.aw ++ [s.lens.length] = _
      rw [h.aw, List.length_append, List.length_singleton, show s.lens.length + 1 - a = (s.lens.length - a) + 1 by omega, List.range'_concat]
      simp; omega
    · have := h.hw
      show s.w ++ [s.lens.length] = _
      rw [h.w, List.length_append, List.length_singleton, show s.lens.length + 1 - wd = (s.lens.length - wd) + 1 by omega, List.range'_concat]
      simp; omega
    · intro _
      show s.beat < (s.lens ++ [n]).getD wd 0
      rcases Nat.lt_or_ge wd s.lens.length with hlt | hge
      · rw [getD_append_lt hlt]; exact h.beatLt hlt
      · have : wd = s.lens.length := by have := h.hw; omega
        rw [h.beat0 this, this]; simpa using hn
    · intro he
      have := h.hw
      simp at he; omega
    · show Spec.beats s.log = bursts 0 ((s.lens ++ [n]).take wd) ++ _
      rw [List.take_append_of_le_length h.hw]; exact h.beats
  | awDone =>
    simp only [Aq.step] at hs
    cases haw : s.aw with
    | nil => rw [haw] at hs; cases hs
    | cons t r =>
      rw [haw] at hs; cases hs
      have hlt : a < s.lens.length := by
        rcases Nat.lt_or_ge a s.lens.length with hlt | hge
        · exact hlt
        · rw [h.aw, show s.lens.length - a = 0 by omega] at haw; cases haw
      obtain ⟨rfl, rfl⟩ : a = t ∧ List.range' (a + 1) (s.lens.length - (a + 1)) = r := by
        rw [h.aw, show s.lens.length - a = (s.lens.length - (a + 1)) + 1 by omega, List.range'_succ] at haw
        simpa using haw
      refine ⟨a + 1, wd, ?_, ?_⟩
      · refine ⟨?_, h.pos, hlt, h.hw, rfl, h.w, ?_, ?_, ?_, h.wEnded, h.beatLt, h.beat0, ?_, ?_, ?_⟩
        · show s.lens = _
          rw [callLens_append, ← h.lens]; simp [callLens]
        · show (s.awEnded ++ [a]).Pairwise _
          rw [List.pairwise_append]
          refine ⟨h.sorted, List.pairwise_singleton _ _, ?_⟩
          intro x hx y hy
          rw [List.mem_singleton.1 hy]; exact h.below x hx
        · intro x hx
          show x < a + 1
          rcases List.mem_append.1 hx with hx | hx
          · have := h.below x hx; omega
          · rw [List.mem_singleton.1 hx]; omega
        · show addresses (s.log ++ [.aw a]) = s.awEnded ++ [a]
          rw [addresses_append, h.addr]; rfl
        · show Spec.beats (s.log ++ [.aw a]) = _
          rw [beats_append]; simpa [Spec.beats] using h.beats
        · show endedBursts (s.log ++ [.aw a]) = wd
          rw [endedBursts_append, h.ended]; rfl
        · show (responses (s.log ++ [.aw a])).map (·.1) ++ _ = (s.awEnded ++ [a]).filter _
          rw [filter_lt_append, ← h.resp, responses_append]
          have : (a ∈ s.wEnded) ↔ a < wd := by rw [h.wEnded]; exact List.mem_range
          by_cases hc : a < wd <;> simp [this, hc, responses]
      · intro _ he
        show s.awEnded ++ [a] = _
        rw [he, List.range_succ]
  | awRaise =>
    simp only [Aq.step] at hs
    cases haw : s.aw with
    | nil => rw [haw] at hs; cases hs
    | cons t r =>
      rw [haw] at hs; cases hs
      have hlt : a < s.lens.length := by
        rcases Nat.lt_or_ge a s.lens.length with hlt | hge
        · exact hlt
        · rw [h.aw, show s.lens.length - a = 0 by omega] at haw; cases haw
      obtain ⟨rfl, rfl⟩ : a = t ∧ List.range' (a + 1) (s.lens.length - (a + 1)) = r := by
        rw [h.aw, show s.lens.length - a = (s.lens.length - (a + 1)) + 1 by omega, List.range'_succ] at haw
        simpa using haw
      refine ⟨a + 1, wd, ?_, fun hn => absurd rfl hn⟩
      refine ⟨?_, h.pos, hlt, h.hw, rfl, h.w, h.sorted, ?_, ?_, h.wEnded, h.beatLt, h.beat0, ?_, ?_, ?_⟩
      · show s.lens = _
        rw [callLens_append, ← h.lens]; simp [callLens]
      · intro x hx
        have := h.below x hx
        omega
      · show addresses (s.log ++ [.failed a]) = _
        rw [addresses_append, h.addr]; simp [addresses]
      · show Spec.beats (s.log ++ [.failed a]) = _
        rw [beats_append]; simpa [Spec.beats] using h.beats
      · show endedBursts (s.log ++ [.failed a]) = wd
        rw [endedBursts_append, h.ended]; rfl
      · show (responses (s.log ++ [.failed a])).map (·.1) ++ _ = _
        rw [responses_append]; simpa [responses] using h.resp
  | wBeat =>
    simp only [Aq.step] at hs
    cases hw : s.w with
    | nil => rw [hw] at hs; cases hs
    | cons t r =>
      rw [hw] at hs
      have hlt : wd < s.lens.length := by
        rcases Nat.lt_or_ge wd s.lens.length with hlt | hge
        · exact hlt
        · rw [h.w, show s.lens.length - wd = 0 by omega] at hw; cases hw
      obtain ⟨rfl, rfl⟩ : wd = t ∧ List.range' (wd + 1) (s.lens.length - (wd + 1)) = r := by
        rw [h.w, show s.lens.length - wd = (s.lens.length - (wd + 1)) + 1 by omega, List.range'_succ] at hw
        simpa using hw
      have hb := h.beatLt hlt
      simp only at hs
      split at hs
      · rename_i hmore
        cases hs
        refine ⟨a, wd, ?_, fun _ he => he⟩
        refine ⟨?_, h.pos, h.ha, h.hw, h.aw, by rw [← h.w, hw], h.sorted, h.below, ?_, h.wEnded, fun _ => hmore, ?_, ?_, ?_, ?_⟩
        · show s.lens = _
          rw [callLens_append, ← h.lens]; simp [callLens]
        · show addresses (s.log ++ [.w wd s.beat false]) = _
          rw [addresses_append, h.addr]; simp [addresses]
        · intro he; exact absurd he (Nat.ne_of_lt hlt)
        · show Spec.beats (s.log ++ [.w wd s.beat false]) = _ ++ burstPart wd (s.beat + 1)
          rw [beats_append, h.beats, burstPart, burstPart, List.range_succ]
          simp [Spec.beats]
        · show endedBursts (s.log ++ [.w wd s.beat false]) = wd
          rw [endedBursts_append, h.ended]; rfl
        · show (responses (s.log ++ [.w wd s.beat false])).map (·.1) ++ _ = _
          rw [responses_append]; simpa [responses] using h.resp
      · rename_i hmore
        have hlast : s.lens.getD wd 0 = s.beat + 1 := by omega
        cases hs
        refine ⟨a, wd + 1, ?_, fun _ he => he⟩
        have htake : s.lens.take (wd + 1) = s.lens.take wd ++ [s.beat + 1] := by
          rw [List.take_succ_eq_append_getElem hlt]
          congr 2
          rw [← hlast]; simp [List.getD, hlt]
        refine ⟨?_, h.pos, h.ha, hlt, h.aw, rfl, h.sorted, h.below, ?_, ?_, ?_, fun _ => rfl, ?_, ?_, ?_⟩
        · show s.lens = _
          rw [callLens_append, ← h.lens]; simp [callLens]
        · show addresses (s.log ++ [.w wd s.beat true]) = _
          rw [addresses_append, h.addr]; simp [addresses]
        · show s.wEnded ++ [wd] = _
          rw [h.wEnded, List.range_succ]
        · intro hlt'
          show 0 < s.lens.getD (wd + 1) 0
          have : s.lens.getD (wd + 1) 0 = s.lens[wd + 1] := by simp [List.getD, List.getElem?_eq_getElem hlt']
          rw [this]; exact h.pos _ (List.getElem_mem _)
        · show Spec.beats (s.log ++ [.w wd s.beat true]) = bursts 0 (s.lens.take (wd + 1)) ++ burstPart (wd + 1) 0
          rw [beats_append, h.beats, htake, bursts_append]
          have : (s.lens.take wd).length = wd := by rw [List.length_take]; omega
          simp [bursts, this, burst_last, burstPart, Spec.beats]
        · show endedBursts (s.log ++ [.w wd s.beat true]) = wd + 1
          rw [endedBursts_append, h.ended]; rfl
        · show (responses (s.log ++ [.w wd s.beat true])).map (·.1) ++ _ = s.awEnded.filter (· < wd + 1)
          rw [filter_lt_succ _ _ h.sorted, ← h.resp, responses_append]
          by_cases hc : wd ∈ s.awEnded <;> simp [hc, responses]
  | resp r =>
    simp only [Aq.step] at hs
    refine ⟨a, wd, ?_, ?_⟩
    · cases hb : s.b with
      | nil =>
        rw [hb] at hs; cases hs
        refine ⟨?_, h.pos, h.ha, h.hw, h.aw, h.w, h.sorted, h.below, ?_, h.wEnded, h.beatLt, h.beat0, ?_, ?_, ?_⟩
        · show s.lens = _
          rw [callLens_append, ← h.lens]; simp [callLens]
        · show addresses (s.log ++ [.lost r]) = _
          rw [addresses_append, h.addr]; simp [addresses]
        · show Spec.beats (s.log ++ [.lost r]) = _
          rw [beats_append]; simpa [Spec.beats] using h.beats
        · show endedBursts (s.log ++ [.lost r]) = wd
          rw [endedBursts_append, h.ended]; rfl
        · show (responses (s.log ++ [.lost r])).map (·.1) ++ [] = _
          rw [responses_append, ← h.resp, hb]; simp [responses]
      | cons t q =>
        rw [hb] at hs; cases hs
        refine ⟨?_, h.pos, h.ha, h.hw, h.aw, h.w, h.sorted, h.below, ?_, h.wEnded, h.beatLt, h.beat0, ?_, ?_, ?_⟩
        · show s.lens = _
          rw [callLens_append, ← h.lens]; simp [callLens]
        · show addresses (s.log ++ [.b t r]) = _
          rw [addresses_append, h.addr]; simp [addresses]
        · show Spec.beats (s.log ++ [.b t r]) = _
          rw [beats_append]; simpa [Spec.beats] using h.beats
        · show endedBursts (s.log ++ [.b t r]) = wd
          rw [endedBursts_append, h.ended]; rfl
        · show (responses (s.log ++ [.b t r])).map (·.1) ++ q = _
          rw [responses_append, ← h.resp, hb]; simp [responses]
    · intro _ he
      cases hb : s.b with
      | nil => rw [hb] at hs; cases hs; exact he
      | cons t q => rw [hb] at hs; cases hs; exact he

theorem aqInv {ops : List AqOp} {s : Aq} (hr : Aq.init.run ops = some s) (hpos : ∀ n ∈ callLens ops, 0 < n) :
    ∃ a wd, AqInv ops s a wd ∧ (AqOp.awRaise ∉ ops → s.awEnded = List.range a) := by
  revert hpos
  refine Aq.induct (P := fun ops s => (∀ n ∈ callLens ops, 0 < n) → ∃ a wd, AqInv ops s a wd ∧ (AqOp.awRaise ∉ ops → s.awEnded = List.range a))
    (fun _ => ⟨0, 0, aqInv_init, fun _ => rfl⟩) ?_ hr
  intro pre s o s' ih _ hs hp
  obtain ⟨a, wd, hi, hn⟩ := ih (fun n h => hp n (by rw [callLens_append]; exact List.mem_append_left _ h))
  obtain ⟨a', wd', hi', hn'⟩ := hi.step o (fun n h => hp n (by rw [callLens_append, h]; exact List.mem_append_right _ (by simp [callLens]))) hs
  refine ⟨a', wd', hi', fun hnot => hn' ?_ (hn ?_)⟩
  · intro he; exact hnot (by simp [he])
  · intro hm; exact hnot (List.mem_append_left _ hm)

theorem burstPart_prefix (t j n : Nat) (h : j < n) : burstPart t j <+: burst t 0 n := by
  rw [burst_part t j n h]; exact List.prefix_append _ _

theorem AqInv.beats_prefix {ops : List AqOp} {s : Aq} {a wd : Nat} (h : AqInv ops s a wd) : Spec.beats s.log <+: bursts 0 (callLens ops) := by
  rw [h.beats, ← h.lens]
  have hsplit : bursts 0 s.lens = bursts 0 (s.lens.take wd) ++ bursts wd (s.lens.drop wd) := by
    conv => lhs; rw [← List.take_append_drop wd s.lens]
    rw [bursts_append]
    have := h.hw
    simp [List.length_take, Nat.min_eq_left this]
  rw [hsplit, List.prefix_append_right_inj]
  rcases Nat.lt_or_ge wd s.lens.length with hlt | hge
  · rw [List.drop_eq_getElem_cons hlt, bursts]
    have hb := h.beatLt hlt
    have : s.lens.getD wd 0 = s.lens[wd] := by simp [List.getD, List.getElem?_eq_getElem hlt]
    rw [this] at hb
    exact (burstPart_prefix wd s.beat _ hb).trans (List.prefix_append _ _)
  · rw [h.beat0 (by have := h.hw; omega)]; exact List.nil_prefix

theorem filter_range_lt (a wd : Nat) : (List.range a).filter (· < wd) = List.range (min a wd) := by
  induction a with
  | zero => simp
  | succ a ih =>
    rw [List.range_succ, List.filter_append, ih]
    by_cases h : a < wd
    · rw [show min (a + 1) wd = min a wd + 1 by omega, List.range_succ]; simp [h, show min a wd = a by omega]
    · rw [show min (a + 1) wd = min a wd by omega]; simp [h]

/-- With an in-order slave and no address that cannot be sent, responses are matched. -/
theorem aq_matched {ops : List AqOp} {s : Aq} (hr : Aq.init.run ops = some s) (hpos : ∀ n ∈ callLens ops, 0 < n)
    (hraise : AqOp.awRaise ∉ ops) (hslave : InOrderSlave ops) :
    (responses s.log = (List.range (slaveResponses ops).length).zip (slaveResponses ops)) ∧ ∀ r, AqEv.lost r ∉ s.log := by
  revert hpos hraise hslave
  refine Aq.induct (P := fun ops s => (∀ n ∈ callLens ops, 0 < n) → AqOp.awRaise ∉ ops → InOrderSlave ops →
    (responses s.log = (List.range (slaveResponses ops).length).zip (slaveResponses ops)) ∧ ∀ r, AqEv.lost r ∉ s.log)
    (fun _ _ _ => ⟨rfl, by intro r h; cases h⟩) ?_ hr
  intro pre s o s' ih hpre hs hp hra hsl
  have hp' : ∀ n ∈ callLens pre, 0 < n := fun n h => hp n (by rw [callLens_append]; exact List.mem_append_left _ h)
  have hra' : AqOp.awRaise ∉ pre := fun h => hra (List.mem_append_left _ h)
  obtain ⟨ih1, ih2⟩ := ih hp' hra' (fun p r q t he hp => hsl p r (q ++ [o]) t (by rw [he]; simp) hp)
  obtain ⟨a, wd, hi, hn⟩ := aqInv hpre hp'
  have haw := hn hra'
  cases o with
  | call n => cases hs; exact ⟨by simpa [slaveResponses_append, slaveResponses] using ih1, ih2⟩
  | awDone =>
    simp only [Aq.step] at hs
    cases h : s.aw with
    | nil => rw [h] at hs; cases hs
    | cons t r =>
      rw [h] at hs; cases hs
      exact ⟨by simpa [slaveResponses_append, slaveResponses, responses_append, responses] using ih1, by simpa using ih2⟩
  | awRaise => exact absurd (by simp) hra
  | wBeat =>
    simp only [Aq.step] at hs
    cases h : s.w with
    | nil => rw [h] at hs; cases hs
    | cons t r =>
      rw [h] at hs
      simp only at hs
      split at hs <;> cases hs <;>
        exact ⟨by simpa [slaveResponses_append, slaveResponses, responses_append, responses] using ih1, by simpa using ih2⟩
  | resp r =>
    obtain ⟨h1, h2⟩ := hsl pre r [] s rfl hpre
    have hresp := hi.resp
    rw [ih1, haw] at hresp
    rw [hi.addr, haw, List.length_range] at h1
    rw [hi.ended] at h2
    have hmap : ((List.range (slaveResponses pre).length).zip (slaveResponses pre)).map (·.1) = List.range (slaveResponses pre).length := by
      rw [← List.unzip_fst, List.unzip_zip (by simp)]
    rw [hmap] at hresp
    have hfil := filter_range_lt a wd
    rw [hfil, show min a wd = (slaveResponses pre).length + ((min a wd - (slaveResponses pre).length - 1) + 1) by omega] at hresp
    have hb : s.b = List.range' (slaveResponses pre).length (min a wd - (slaveResponses pre).length - 1 + 1) := by
      rw [List.range_eq_range', List.range_eq_range', ← List.range'_append_1] at hresp
      simpa using hresp
    simp only [Aq.step] at hs
    rw [hb, List.range'_succ] at hs
    cases hs
    constructor
    · rw [responses_append, ih1, slaveResponses_append]
      show _ ++ [((slaveResponses pre).length, r)] = (List.range ((slaveResponses pre) ++ [r]).length).zip (_ ++ [r])
      rw [List.length_append, List.length_singleton, List.range_succ, List.zip_append (by simp)]
      rfl
    · intro q hq
      rcases List.mem_append.1 hq with hq | hq
      · exact ih2 q hq
      · simp at hq

/-! ### Reads -/

theorem readAddresses_append (a b : List ArEv) : readAddresses (a ++ b) = readAddresses a ++ readAddresses b := by simp [readAddresses]
theorem readBeats_append (a b : List ArEv) : readBeats (a ++ b) = readBeats a ++ readBeats b := by simp [readBeats]
theorem slaveBeats_append (a b : List ArOp) : slaveBeats (a ++ b) = slaveBeats a ++ slaveBeats b := by simp [slaveBeats]

theorem Ar.run_append (s : Ar) (a b : List ArOp) : s.run (a ++ b) = (s.run a).bind fun s' => s'.run b := by
  induction a generalizing s with
  | nil => rfl
  | cons o r ih =>
    simp only [List.cons_append, Ar.run]
    cases s.step o with
    | none => rfl
    | some s' => exact ih s'

theorem Ar.induct {P : List ArOp → Ar → Prop} (h0 : P [] Ar.init)
    (hs : ∀ pre s o s', P pre s → Ar.init.run pre = some s → s.step o = some s' → P (pre ++ [o]) s')
    {ops : List ArOp} {s : Ar} (hr : Ar.init.run ops = some s) : P ops s := by
  have gen : ∀ (ops pre : List ArOp) (s s' : Ar), P pre s → Ar.init.run pre = some s → s.run ops = some s' → P (pre ++ ops) s' := by
    intro ops
    induction ops with
    | nil => intro pre s s' hp _ h; cases h; simpa using hp
    | cons o r ih =>
      intro pre s s' hp hpre h
      simp only [Ar.run] at h
      cases ho : s.step o with
      | none => rw [ho] at h; cases h
      | some t =>
        rw [ho] at h
        have hrun : Ar.init.run (pre ++ [o]) = some t := by rw [Ar.run_append, hpre]; simp [Ar.run, ho]
        have := ih (pre ++ [o]) t s' (hs pre s o t hp hpre ho) hrun h
        simpa using this
  exact gen ops [] Ar.init s h0 rfl hr

theorem numbered_append (l : List (Nat × Bool)) (x : Nat × Bool) : ∀ k, numbered k (l ++ [x]) = numbered k l ++ [(k + finished l, x)] := by
  induction l with
  | nil => intro k; simp [numbered, finished]
  | cons y r ih =>
    intro k
    obtain ⟨v, b⟩ := y
    simp only [List.cons_append, numbered, ih]
    cases b <;> simp [finished] <;> omega

structure ArInv (ops : List ArOp) (s : Ar) (a : Nat) : Prop where
  calls : s.calls = callReads ops
  ha : a ≤ s.calls
  ar : s.ar = List.range' a (s.calls - a)
  sorted : (readAddresses s.log).Pairwise (· < ·)
  below : ∀ t ∈ readAddresses s.log, t < a

theorem arInv {ops : List ArOp} {s : Ar} (hr : Ar.init.run ops = some s) :
    ∃ a, ArInv ops s a ∧ (ArOp.arRaise ∉ ops → readAddresses s.log = List.range a) := by
  refine Ar.induct (P := fun ops s => ∃ a, ArInv ops s a ∧ (ArOp.arRaise ∉ ops → readAddresses s.log = List.range a))
    ⟨0, ⟨rfl, Nat.le_refl _, rfl, List.Pairwise.nil, by intro t h; cases h⟩, fun _ => rfl⟩ ?_ hr
  rintro pre s o s' ⟨a, h, hn⟩ _ hs
  have hnot : ArOp.arRaise ∉ pre ++ [o] → ArOp.arRaise ∉ pre := fun hx hm => hx (List.mem_append_left _ hm)
  cases o with
  | call =>
    cases hs
    refine ⟨a, ⟨?_, ?_, ?_, h.sorted, h.below⟩, fun hx => hn (hnot hx)⟩
    · simp [callReads, h.calls]
    · have := h.ha
      show a ≤ s.calls + 1
      omega
    · have := h.ha
      show s.ar ++ [s.calls] = List.range' a (s.calls + 1 - a)
      rw [h.ar, show s.calls + 1 - a = (s.calls - a) + 1 by omega, List.range'_concat]
      simp; omega
  | arDone =>
    simp only [Ar.step] at hs
    cases haw : s.ar with
    | nil => rw [haw] at hs; cases hs
    | cons t r =>
      rw [haw] at hs; cases hs
      have hlt : a < s.calls := by
        rcases Nat.lt_or_ge a s.calls with hlt | hge
        · exact hlt
        · rw [h.ar, show s.calls - a = 0 by omega] at haw; cases haw
      obtain ⟨rfl, rfl⟩ : a = t ∧ List.range' (a + 1) (s.calls - (a + 1)) = r := by
        rw [h.ar, show s.calls - a = (s.calls - (a + 1)) + 1 by omega, List.range'_succ] at haw
        simpa using haw
      have hra : readAddresses (s.log ++ [.ar a]) = readAddresses s.log ++ [a] := by rw [readAddresses_append]; rfl
      refine ⟨a + 1, ⟨?_, hlt, rfl, ?_, ?_⟩, ?_⟩
      · show s.calls = _
        rw [h.calls]; simp [callReads]
      · show (readAddresses (s.log ++ [.ar a])).Pairwise _
        rw [hra, List.pairwise_append]
        refine ⟨h.sorted, List.pairwise_singleton _ _, ?_⟩
        intro x hx y hy
        rw [List.mem_singleton.1 hy]; exact h.below x hx
      · intro x hx
        replace hx : x ∈ readAddresses (s.log ++ [.ar a]) := hx
        rw [hra] at hx
        rcases List.mem_append.1 hx with hx | hx
        · have := h.below x hx; omega
        · rw [List.mem_singleton.1 hx]; omega
      · intro hx
        show readAddresses (s.log ++ [.ar a]) = _
        rw [hra, hn (hnot hx), List.range_succ]
  | arRaise =>
    simp only [Ar.step] at hs
    cases haw : s.ar with
    | nil => rw [haw] at hs; cases hs
    | cons t r =>
      rw [haw] at hs; cases hs
      have hlt : a < s.calls := by
        rcases Nat.lt_or_ge a s.calls with hlt | hge
        · exact hlt
        · rw [h.ar, show s.calls - a = 0 by omega] at haw; cases haw
      obtain ⟨rfl, rfl⟩ : a = t ∧ List.range' (a + 1) (s.calls - (a + 1)) = r := by
        rw [h.ar, show s.calls - a = (s.calls - (a + 1)) + 1 by omega, List.range'_succ] at haw
        simpa using haw
      refine ⟨a + 1, ⟨?_, hlt, rfl, h.sorted, ?_⟩, fun hx => absurd (by simp) hx⟩
      · show s.calls = _
        rw [h.calls]; simp [callReads]
      · intro x hx; have := h.below x hx; omega
  | beat v l =>
    simp only [Ar.step] at hs
    have hc : callReads (pre ++ [.beat v l]) = callReads pre := by simp [callReads]
    cases hr' : s.r with
    | nil =>
      rw [hr'] at hs; cases hs
      have : readAddresses (s.log ++ [.lost v]) = readAddresses s.log := by rw [readAddresses_append]; simp [readAddresses]
      exact ⟨a, ⟨by rw [hc]; exact h.calls, h.ha, h.ar, by rw [this]; exact h.sorted, by rw [this]; exact h.below⟩, fun hx => by rw [this]; exact hn (hnot hx)⟩
    | cons t q =>
      rw [hr'] at hs; cases hs
      have : readAddresses (s.log ++ [.r t v l]) = readAddresses s.log := by rw [readAddresses_append]; simp [readAddresses]
      exact ⟨a, ⟨by rw [hc]; exact h.calls, h.ha, h.ar, by rw [this]; exact h.sorted, by rw [this]; exact h.below⟩, fun hx => by rw [this]; exact hn (hnot hx)⟩

/-- Reads from an in-order slave: burst number `k` goes to the transaction of which the address was number `k`. -/
theorem ar_matched {ops : List ArOp} {s : Ar} (hr : Ar.init.run ops = some s) (hslave : InOrderReads ops) :
    readBeats s.log = (numbered 0 (slaveBeats ops)).map (fun x => ((readAddresses s.log).getD x.1 0, x.2)) ∧
      (∀ x ∈ numbered 0 (slaveBeats ops), x.1 < (readAddresses s.log).length) ∧
      s.r = (readAddresses s.log).drop (finished (slaveBeats ops)) ∧ finished (slaveBeats ops) ≤ (readAddresses s.log).length ∧
      ∀ v, ArEv.lost v ∉ s.log := by
  revert hslave
  refine Ar.induct (P := fun ops s => InOrderReads ops →
      readBeats s.log = (numbered 0 (slaveBeats ops)).map (fun x => ((readAddresses s.log).getD x.1 0, x.2)) ∧
      (∀ x ∈ numbered 0 (slaveBeats ops), x.1 < (readAddresses s.log).length) ∧
      s.r = (readAddresses s.log).drop (finished (slaveBeats ops)) ∧ finished (slaveBeats ops) ≤ (readAddresses s.log).length ∧
      ∀ v, ArEv.lost v ∉ s.log)
    (fun _ => ⟨rfl, (by intro x h; cases h), rfl, Nat.le_refl _, (by intro v h; cases h)⟩) ?_ hr
  intro pre s o s' ih hpre hs hsl
  obtain ⟨h1, h2, h3, h4, h5⟩ := ih (fun p v l q t he hp => hsl p v l (q ++ [o]) t (by rw [he]; simp) hp)
  cases o with
  | call =>
    cases hs
    have : slaveBeats (pre ++ [.call]) = slaveBeats pre := by rw [slaveBeats_append]; simp [slaveBeats]
    rw [this]; exact ⟨h1, h2, h3, h4, h5⟩
  | arDone =>
    simp only [Ar.step] at hs
    have hb : slaveBeats (pre ++ [.arDone]) = slaveBeats pre := by rw [slaveBeats_append]; simp [slaveBeats]
    rw [hb]
    cases h : s.ar with
    | nil => rw [h] at hs; cases hs
    | cons t q =>
      rw [h] at hs; cases hs
      have hra : readAddresses (s.log ++ [.ar t]) = readAddresses s.log ++ [t] := by rw [readAddresses_append]; rfl
      refine ⟨?_, ?_, ?_, ?_, ?_⟩
      · show readBeats (s.log ++ [.ar t]) = _
        rw [readBeats_append, h1]
        have : readBeats [.ar t] = [] := rfl
        rw [this, List.append_nil]
        apply List.map_congr_left
        intro x hx
        have hlt := h2 x hx
        show ((readAddresses s.log).getD x.1 0, x.2) = ((readAddresses (s.log ++ [.ar t])).getD x.1 0, x.2)
        rw [hra, getD_append_lt hlt]
      · intro x hx
        show x.1 < (readAddresses (s.log ++ [.ar t])).length
        have := h2 x hx
        rw [hra]; simp; omega
      · show s.r ++ [t] = (readAddresses (s.log ++ [.ar t])).drop _
        rw [hra, List.drop_append_of_le_length h4, h3]
      · show _ ≤ (readAddresses (s.log ++ [.ar t])).length
        rw [hra]; simp; omega
      · intro v hv
        rcases List.mem_append.1 hv with hv | hv
        · exact h5 v hv
        · simp at hv
  | arRaise =>
    simp only [Ar.step] at hs
    have hb : slaveBeats (pre ++ [.arRaise]) = slaveBeats pre := by rw [slaveBeats_append]; simp [slaveBeats]
    rw [hb]
    cases h : s.ar with
    | nil => rw [h] at hs; cases hs
    | cons t q => rw [h] at hs; cases hs; exact ⟨h1, h2, h3, h4, h5⟩
  | beat v l =>
    have hlt := hsl pre v l [] s rfl hpre
    have hb : slaveBeats (pre ++ [.beat v l]) = slaveBeats pre ++ [(v, l)] := by rw [slaveBeats_append]; rfl
    have hfin : finished (slaveBeats pre ++ [(v, l)]) = finished (slaveBeats pre) + if l then 1 else 0 := by
      cases l <;> simp [finished]
    rw [List.drop_eq_getElem_cons hlt] at h3
    simp only [Ar.step] at hs
    rw [h3] at hs
    cases hs
    generalize ht : (readAddresses s.log)[finished (slaveBeats pre)] = t at *
    have hra : readAddresses (s.log ++ [.r t v l]) = readAddresses s.log := by rw [readAddresses_append]; simp [readAddresses]
    have hget : (readAddresses s.log).getD (finished (slaveBeats pre)) 0 = t := by simp [List.getD, List.getElem?_eq_getElem hlt, ht]
    refine ⟨?_, ?_, ?_, ?_, ?_⟩
    · show readBeats (s.log ++ [.r t v l]) = _
      rw [readBeats_append, h1, hb, numbered_append, List.map_append]
      simp only [hra, List.map_cons, List.map_nil, Nat.zero_add, hget]
      rfl
    · intro x hx
      show x.1 < (readAddresses (s.log ++ [.r t v l])).length
      rw [hra]
      rw [hb, numbered_append] at hx
      rcases List.mem_append.1 hx with hx | hx
      · exact h2 x hx
      · rw [List.mem_singleton.1 hx]; simpa using hlt
    · show (if l then _ else _) = (readAddresses (s.log ++ [.r t v l])).drop _
      rw [hra, hb, hfin]
      cases l
      · simp only [Bool.false_eq_true, if_false, Nat.add_zero]
        rw [List.drop_eq_getElem_cons hlt, ht]
      · simp
    · show _ ≤ (readAddresses (s.log ++ [.r t v l])).length
      rw [hra, hb, hfin]; split <;> omega
    · intro v' hv
      rcases List.mem_append.1 hv with hv | hv
      · exact h5 v' hv
      · simp at hv

end CocotbBus
