import Verif.Spec.DriverBase
import Verif.Proof.Coro

namespace CocotbBus
open Coro Spec
variable {I : Type}

theorem andThen_fst_map {O α β : Type} (r : Res I O α) (f : α → M I O β) :
    (r.andThen f).1 = r.1 ++ (match r.2 with
      | .ok a s => (f a s).1
      | _ => []) := by
  obtain ⟨t, e⟩ := r
  cases e <;> simp

/-- `twiddle` on any schedule: sampled values and outcome -/
theorem twiddle_run (g : List (Nat × Nat)) : ∀ s : Sim I Logic, s.phase ≠ .ro →
    ((twiddle g s).1.map Prod.fst = (wave g).take s.rest.length) ∧
    (if (wave g).length ≤ s.rest.length then
      ∃ s', (twiddle g s).2 = .err .runtimeError s' ∧ s'.out = (if g = [] then s.out else .zero)
    else ∃ s', (twiddle g s).2 = .blocked s') := by
  induction g with
  | nil => intro s _; simp [twiddle, raise, wave]
  | cons p r ih =>
    intro s hs
    obtain ⟨on, off⟩ := p
    simp only [twiddle, bind_write _ _ s hs, bind_run, edges_run]
    by_cases h1 : on ≤ s.rest.length
    · simp only [h1, if_true, andThen_ok]
      have hp : (advance on { s with out := Logic.one }).phase ≠ .ro := advance_phase _ _ hs
      rw [bind_write _ _ _ hp]
      simp only [bind_run, edges_run, advance_rest]
      by_cases h2 : off ≤ s.rest.length - on
      · simp only [List.length_drop, h2, if_true, andThen_ok]
        have hp2 : (advance off { (advance on { s with out := Logic.one }) with out := Logic.zero }).phase ≠ .ro :=
          advance_phase _ _ hp
        obtain ⟨i1, i2⟩ := ih _ hp2
        simp only [advance_rest, advance_out, List.length_drop] at i1 i2
        constructor
        · simp only [List.map_append, List.map_map, i1, wave, Function.comp_def, List.map_const', sampled_length,
            List.length_drop, List.take_append, List.length_append, List.length_replicate, List.take_replicate]
          have e1 : min on s.rest.length = on := by omega
          have e2 : min off (s.rest.length - on) = off := by omega
          have e3 : min s.rest.length on = on := by omega
          have e4 : min (s.rest.length - on) off = off := by omega
          rw [e1, e2, e3, e4, List.append_assoc, Nat.sub_sub]
        · simp only [wave, List.length_append, List.length_replicate]
          have hc : (on + off + (wave r).length ≤ s.rest.length) ↔ ((wave r).length ≤ s.rest.length - on - off) := by omega
          simp only [hc]
          split
          · rename_i hh
            rw [if_pos hh] at i2
            obtain ⟨s', a, b⟩ := i2
            refine ⟨s', a, ?_⟩
            rw [b]; simp
          · rename_i hh
            rw [if_neg hh] at i2
            exact i2
      · simp only [List.length_drop, h2, if_false, andThen_blocked]
        constructor
        · simp only [List.map_append, List.map_map, wave, Function.comp_def, List.map_const', sampled_length,
            List.length_drop, List.take_append, List.length_append, List.length_replicate, List.take_replicate]
          have e1 : min on s.rest.length = on := by omega
          have e2 : min off (s.rest.length - on) = s.rest.length - on := by omega
          have e3 : min s.rest.length on = on := by omega
          have e4 : min (s.rest.length - on) off = s.rest.length - on := by omega
          have e5 : s.rest.length - (on + off) = 0 := by omega
          simp [e1, e2, e3, e4, e5]
        · simp only [wave, List.length_append, List.length_replicate]
          rw [if_neg (by omega)]
          exact ⟨_, rfl⟩
    · simp only [h1, if_false, andThen_blocked]
      constructor
      · simp only [List.map_map, wave, Function.comp_def, List.map_const', sampled_length, List.take_append,
          List.length_append, List.length_replicate, List.take_replicate]
        have e1 : min on s.rest.length = s.rest.length := by omega
        have e2 : min s.rest.length on = s.rest.length := by omega
        have e3 : s.rest.length - on = 0 := by omega
        have e4 : s.rest.length - (on + off) = 0 := by omega
        simp [e1, e2, e3, e4]
      · simp only [wave, List.length_append, List.length_replicate]
        rw [if_neg (by omega)]
        exact ⟨_, rfl⟩

/-! ### valids -/

/-- the gap inserted before the next word, and the state after it -/
def gapStep (v : Valids) : Nat × Valids :=
  if v.isOff then (v.off, (nextValids v).consume) else (0, v.consume)

/-- the gaps before the next `n` words -/
def gaps : Nat → Valids → List Nat
  | 0, _ => []
  | n + 1, v => (gapStep v).1 :: gaps n (gapStep v).2

theorem gapStep_always (off : Nat) (g : Option (List (Nat × Nat))) :
    gapStep ⟨.always, off, g⟩ = (0, ⟨.always, off, g⟩) := by
  simp [gapStep, Valids.isOff, Valids.consume]

theorem gaps_always (n off : Nat) (g : Option (List (Nat × Nat))) :
    gaps n ⟨.always, off, g⟩ = List.replicate n 0 := by
  induction n with
  | zero => rfl
  | succ n ih => simp [gaps, gapStep_always, ih, List.replicate_succ]

theorem nextPair_usable (g : List (Nat × Nat)) (off : Nat) :
    (usable g = [] ∧ ∃ o, nextPair g off = ⟨.always, o, some []⟩) ∨
    (∃ a b r u, usable g = (a + 1, b) :: usable r ∧ nextPair g off = ⟨.count (a + 1), b, some r⟩ ∧ u = r) := by
  induction g generalizing off with
  | nil => left; exact ⟨rfl, off, rfl⟩
  | cons p r ih =>
    obtain ⟨on, o⟩ := p
    cases on with
    | zero =>
      have : usable ((0, o) :: r) = usable r := by simp [usable]
      rw [this]
      simpa [nextPair] using ih o
    | succ k =>
      right
      exact ⟨k, o, r, r, by simp [usable], by simp [nextPair], rfl⟩

/-- main lemma: in a group with `k` words left -/
theorem gaps_count (n : Nat) : ∀ (k off : Nat) (r : List (Nat × Nat)),
    gaps n ⟨.count k, off, some r⟩ = (List.range n).map (fun i => gapAt ((k, off) :: usable r) i) := by
  induction n with
  | zero => intro k off r; rfl
  | succ n ih =>
    intro k off r
    rw [List.range_succ_eq_map, List.map_cons, List.map_map]
    cases k with
    | succ k =>
      have : gapStep ⟨.count (k + 1), off, some r⟩ = (0, ⟨.count k, off, some r⟩) := by
        simp [gapStep, Valids.isOff, Valids.consume]
      rw [gaps, this, ih]
      congr 1
      apply List.map_congr_left
      intro i _
      simp only [gapAt, Function.comp]
      by_cases h1 : i < k
      · rw [if_pos h1, if_pos (by omega)]
      · by_cases h2 : i = k
        · rw [if_neg h1, if_pos h2, if_neg (by omega), if_pos (by omega)]
        · rw [if_neg h1, if_neg h2, if_neg (by omega), if_neg (by omega)]
          congr 1; omega
    | zero =>
      rcases nextPair_usable r off with ⟨h1, o, h2⟩ | ⟨a, b, r', -, h1, h2, -⟩
      · have : gapStep ⟨.count 0, off, some r⟩ = (off, ⟨.always, o, some []⟩) := by
          simp [gapStep, Valids.isOff, nextValids, h2, Valids.consume]
        rw [gaps, this, gaps_always, h1]
        congr 1
        apply List.ext_getElem
        · simp
        · intro i hi1 hi2
          simp [gapAt]
      · have : gapStep ⟨.count 0, off, some r⟩ = (off, ⟨.count a, b, some r'⟩) := by
          simp [gapStep, Valids.isOff, nextValids, h2, Valids.consume]
        rw [gaps, this, ih, h1]
        congr 1
        apply List.map_congr_left
        intro i _
        simp only [gapAt, Function.comp]
        rw [if_neg (show ¬ i.succ < 0 by omega), if_neg (show ¬ i.succ = 0 by omega)]
        by_cases h3 : i < a
        · rw [if_pos h3, if_pos (by omega)]
        · by_cases h4 : i = a
          · rw [if_neg h3, if_pos h4, if_neg (by omega), if_pos (by omega)]
          · rw [if_neg h3, if_neg h4, if_neg (by omega), if_neg (by omega)]
            congr 1; omega

theorem gaps_setValid (n : Nat) (g : List (Nat × Nat)) :
    gaps n (setValidGenerator (some g)) = (List.range n).map (gapAt (usable g)) := by
  unfold setValidGenerator nextValids
  rcases nextPair_usable g 0 with ⟨h1, o, h2⟩ | ⟨a, b, r', -, h1, h2, -⟩
  · simp only [h2, gaps_always, h1]
    apply List.ext_getElem
    · simp
    · intro i hi1 hi2; simp [gapAt]
  · simp only [h2, gaps_count, h1]

theorem gaps_setValid_none (n : Nat) : gaps n (setValidGenerator none) = List.replicate n 0 := by
  simp [setValidGenerator, nextValids, gaps_always]

end CocotbBus
