import Verif.Model.SmallExamples
import Verif.Props.Online

/-! # C120, C121: the flip-flop and mean examples -/

namespace CocotbBus
open Spec

theorem bitRun_length (l : List BitOp) : ∀ d : BitDrv, (d.run l).2.length = (l.filter (· == .edge)).length := by
  induction l with
  | nil => intro d; rfl
  | cons o r ih =>
    intro d
    cases o <;> simp [BitDrv.run, ih]

theorem dffRun_length (ds : List Logic) : ∀ q, (dffRun q ds).length = ds.length := by
  induction ds with
  | nil => intro q; rfl
  | cons d r ih => intro q; simp [dffRun, ih]

theorem dffRun_fst (ds : List Logic) : ∀ q, (dffRun q ds).map Prod.fst = ds := by
  induction ds with
  | nil => intro q; rfl
  | cons d r ih => intro q; simp [dffRun, ih]

theorem dffRun_snd (ds : List Logic) : ∀ q, (dffRun q ds).map Prod.snd = (q :: ds).take ds.length := by
  induction ds with
  | nil => intro q; rfl
  | cons d r ih => intro q; simp [dffRun, ih]

theorem dffEvents_out (n : Nat) (inFirst : Nat → Bool) (l : List (Logic × Logic)) : ∀ k, outputsOf (dffEvents n k inFirst l) = l.map Prod.snd := by
  induction l with
  | nil => intro k; rfl
  | cons x r ih =>
    intro k
    unfold dffEvents dffReports
    by_cases h : k = n <;> cases inFirst k <;> simp [h, outputsOf, ih]

theorem dffEvents_in (n : Nat) (inFirst : Nat → Bool) (l : List (Logic × Logic)) : ∀ k, k ≤ n → inputsOf (dffEvents n k inFirst l) = (l.map Prod.fst).take (n - k) := by
  induction l with
  | nil => intro k _; simp [dffEvents, inputsOf]
  | cons x r ih =>
    intro k hk
    unfold dffEvents dffReports
    by_cases h : k = n
    · simp [h, inputsOf]
    · obtain ⟨m, hm⟩ : ∃ m, n - k = m + 1 := ⟨n - k - 1, by omega⟩
      have := ih (k + 1) (by omega)
      rw [show n - (k + 1) = m by omega] at this
      cases inFirst k <;> simp [h, inputsOf, this, hm]

/-- the output is never ahead of the input by more than the initial value -/
theorem dffEvents_credit (n : Nat) (inFirst : Nat → Bool) (l : List (Logic × Logic)) : ∀ k, k ≤ n → l.length + k ≤ n + 1 → ∀ p t q, dffEvents n k inFirst l = p ++ .output t :: q →
    (outputsOf p).length < 1 + (inputsOf p).length := by
  induction l with
  | nil => intro k _ _ p t q h; cases p <;> cases h
  | cons x r ih =>
    intro k hk hl p t q h
    unfold dffEvents dffReports at h
    by_cases hkn : k = n
    · have hr : r = [] := by
        cases r with
        | nil => rfl
        | cons y r => simp at hl; omega
      subst hr
      subst hkn
      cases hf : inFirst k <;> simp only [if_true, hf, dffEvents] at h
      all_goals
        match p, h with
        | [], h => cases h
        | [a], h => injection h with h1 h2; subst h1; simp [outputsOf, inputsOf]
        | [a, b], h => first | (injection h with h1 h2; injection h2 with h2 h3; subst h1 h2; simp [outputsOf, inputsOf]; done) | cases h
        | a :: b :: c :: p, h => cases p <;> cases h
    · have ih' := ih (k + 1) (by omega) (by simp at hl; omega)
      cases hf : inFirst k <;> simp only [hkn, if_false, hf, List.nil_append] at h
      all_goals
        match p, h with
        | [], h => simp [outputsOf, inputsOf]
        | [a], h => injection h with h1 h2; subst h1; first | (cases h2; done) | simp [outputsOf, inputsOf]
        | a :: b :: p, h =>
          injection h with h1 h2
          injection h2 with h2 h3
          subst h1 h2
          have := ih' p t q h3
          simp [outputsOf, inputsOf]
          omega

/-- C120: the flip-flop test on the flip-flop. Whatever the driver's generator and its signal before, the number of clock edges, and the order of the two
monitors at each of them: the verdict of the scoreboard is success. -/
theorem C120_test (ops : TxnOps Logic) (name : Option String) (imm strict : Bool) (hops : ∀ v, Accepts ops strict v v) (inMon outMon ref : Nat) (hne : inMon ≠ outMon)
    (init sig : Logic) (gen : List (Nat × Nat)) (n : Nat) (inFirst : Nat → Bool) :
    (playIo inMon outMon ref id (dffEvents n 0 inFirst (dffRun init (dffInputs sig gen n)))
      (refBench ops imm (fun _ => [init]) inMon outMon ref (busMonitor name) strict id)).sb.result = .ok () := by
  have hlen : (dffInputs sig gen n).length = n + 1 := by
    unfold dffInputs
    rw [bitRun_length]
    simp
  generalize dffInputs sig gen n = ds at hlen
  rw [C101_model_partial ops name imm strict _ inMon outMon ref hne, dffEvents_out, dffEvents_in _ _ _ 0 (Nat.zero_le _), dffRun_fst, dffRun_snd]
  refine ⟨fun p t q h => dffEvents_credit n inFirst _ 0 (Nat.zero_le _) (by rw [dffRun_length]; omega) p t q h, ?_⟩
  have e : [init] ++ (ds.take (n - 0)).map id = (init :: ds).take ds.length := by rw [hlen]; simp
  rw [e]
  exact ⟨rfl, fun k _ _ => hops _⟩

/-! ### Instances -/

def logicOps : TxnOps Logic := ⟨fun a b => a == b, fun _ => 0, fun v => toString (repr v)⟩

example : ∀ v, Accepts logicOps true v v := by intro v; simp [Accepts, logicOps]

example : dffRun .zero (dffInputs .x [(2, 1), (1, 3)] 5) = [(.one, .zero), (.one, .one), (.zero, .one), (.one, .zero), (.zero, .one), (.zero, .zero)] := by decide

-- without the last edge the test fails: the last input has not come out
example : (playIo 0 1 0 id (dffEvents 3 0 (fun _ => true) ((dffRun .zero (dffInputs .x [(2, 1), (1, 3)] 3)).take 3) ++ [.stop])
    (refBench logicOps false (fun _ => [.zero]) 0 1 0 (busMonitor none) true id)).sb.result ≠ .ok () := by decide +kernel

-- nor does it pass on a wire in the place of the flip-flop
example : (playIo 0 1 0 id (dffEvents 3 0 (fun _ => true) ((dffInputs .x [(2, 1), (1, 3)] 3).map (fun d => (d, d))))
    (refBench logicOps false (fun _ => [.zero]) 0 1 0 (busMonitor none) true id)).sb.result ≠ .ok () := by decide +kernel

/-! ### The mean example -/

theorem meanSum_eq (dw k : Nat) (l : List Nat) (hl : l.length = 2 ^ k) (hb : ∀ x ∈ l, x < 2 ^ dw) : meanSum dw k l = l.sum := by
  have key : ∀ (l : List Nat) (a m : Nat), (∀ x ∈ l, x < 2 ^ dw) → a ≤ m * (2 ^ dw - 1) → m + l.length ≤ 2 ^ k →
      l.foldl (fun s x => (s + x) % 2 ^ (dw + k)) a = a + l.sum := by
    intro l
    induction l with
    | nil => intro a m _ _ _; simp
    | cons x l ih =>
      intro a m hx ha hm
      have hx0 := hx x (by simp)
      have hpos : 0 < 2 ^ dw := Nat.two_pow_pos dw
      simp only [List.length_cons] at hm
      have h1 : a + x ≤ (m + 1) * (2 ^ dw - 1) := by rw [Nat.add_mul, Nat.one_mul]; omega
      have h2 : (m + 1) * (2 ^ dw - 1) ≤ 2 ^ k * (2 ^ dw - 1) := Nat.mul_le_mul_right _ (by omega)
      have h3 : 2 ^ k * (2 ^ dw - 1) < 2 ^ (dw + k) := by
        rw [Nat.add_comm, Nat.pow_add]
        exact Nat.mul_lt_mul_of_pos_left (by omega) (Nat.two_pow_pos k)
      rw [List.foldl_cons, Nat.mod_eq_of_lt (by omega), ih (a + x) (m + 1) (fun y hy => hx y (by simp [hy])) h1 (by omega), List.sum_cons]
      omega
  have := key l 0 0 hb (by simp) (by omega)
  simpa [meanSum] using this

/-- C121: the directed tests of the mean example. Whatever the numbers and whatever the device contained before, the value read is the mean, rounded down. -/
theorem C121_value (dw k : Nat) (d : MeanDev) (nums : List Nat) (hl : nums.length = 2 ^ k) (hb : ∀ x ∈ nums, x < 2 ^ dw) :
    meanValue dw k d nums = nums.sum / 2 ^ k ∧ meanValue dw k d nums < 2 ^ dw := by
  have e : meanValue dw k d nums = nums.sum / 2 ^ k := by
    show meanSum dw k nums / 2 ^ k = _
    rw [meanSum_eq dw k nums hl hb]
  refine ⟨e, ?_⟩
  rw [e, Nat.div_lt_iff_lt_mul (Nat.two_pow_pos k), ← hl]
  have : ∀ l : List Nat, (∀ x ∈ l, x < 2 ^ dw) → l ≠ [] → l.sum < 2 ^ dw * l.length := by
    intro l
    induction l with
    | nil => intro _ h; exact absurd rfl h
    | cons x l ih =>
      intro hx _
      have hx0 := hx x (by simp)
      rw [List.sum_cons, List.length_cons, Nat.mul_add]
      by_cases hn : l = []
      · subst hn; simp; omega
      · have := ih (fun y hy => hx y (by simp [hy])) hn
        omega
  refine this nums hb ?_
  intro h
  rw [h] at hl
  have := Nat.two_pow_pos k
  simp at hl
  omega

theorem meanReset_nil (dw k mon n : Nat) : ∀ d, (meanReset dw k mon n d).1 = [] := by
  induction n with
  | zero => intro d; rfl
  | succ n ih => intro d; simp only [meanReset, ih]; rfl

/-- what is on the expected list and not yet reported -/
def meanPend (k : Nat) : Option (List Nat) → List Nat
  | some l => [l.sum / 2 ^ k]
  | none => []

theorem tracks_expect (ops : TxnOps Nat) (k mon ref : Nat) (strict : Bool) (E : List Nat) (o : Option (List Nat)) (r : List (Option (List Nat))) (h : List (SbOp Nat)) :
    Tracks ops ⟨mon, ref, 0, strict⟩ (E ++ meanPend k o) h → Tracks ops ⟨mon, ref, 0, strict⟩ E (meanExpect k ref (o :: r) ++ h) := by
  intro hh
  cases o with
  | none => simpa [meanPend, meanExpect] using hh
  | some l =>
    show Tracks ops ⟨mon, ref, 0, strict⟩ (if ref = ref then E ++ [l.sum / 2 ^ k] else E) h
    rw [if_pos rfl]
    exact hh

theorem tracks_report (ops : TxnOps Nat) (strict : Bool) (hops : ∀ v, Accepts ops strict v v) (dw k mon ref : Nat) (d : MeanDev) (o : Option (List Nat))
    (hs : ∀ l, o = some l → l.length = 2 ^ k ∧ ∀ x ∈ l, x < 2 ^ dw) (E : List Nat) (h : List (SbOp Nat)) (hh : Tracks ops ⟨mon, ref, 0, strict⟩ E h) :
    Tracks ops ⟨mon, ref, 0, strict⟩ (meanPend k o ++ E) ((d.step dw k false o).report k mon ++ h) := by
  cases o with
  | none => exact hh
  | some l =>
    obtain ⟨h1, h2⟩ := hs l rfl
    have e : (d.step dw k false (some l)).data k = l.sum / 2 ^ k := (C121_value dw k d l h1 h2).1
    show if mon = mon then _ else _
    rw [if_pos rfl]
    exact ⟨_, E, rfl, e ▸ hops _, hh⟩

theorem meanTest_tracks (ops : TxnOps Nat) (strict : Bool) (hops : ∀ v, Accepts ops strict v v) (dw k mon ref : Nat) (r : List (Option (List Nat))) :
    ∀ (o : Option (List Nat)) (d : MeanDev), (∀ l, some l ∈ o :: r → l.length = 2 ^ k ∧ ∀ x ∈ l, x < 2 ^ dw) →
    Tracks ops ⟨mon, ref, 0, strict⟩ (meanPend k o) (meanTest dw k mon ref d (o :: (r ++ [none]))) := by
  induction r with
  | nil =>
    intro o d hs
    have := tracks_report ops strict hops dw k mon ref d o (fun l hl => hs l (by simp [hl])) [] [] rfl
    simp only [List.append_nil] at this
    simpa [meanTest, meanExpect] using this
  | cons o' r ih =>
    intro o d hs
    refine tracks_expect ops k mon ref strict (meanPend k o) o' (r ++ [none]) _ ?_
    exact tracks_report ops strict hops dw k mon ref d o (fun l hl => hs l (by simp [hl])) _ _ (ih o' _ (fun l hl => hs l (by simp at hl; simp [hl])))

/-- C121: the randomised test of the mean example, with any number of lots of numbers, with or without gaps between them, any number of edges in reset before and
one edge after. The verdict is success. -/
theorem C121_test (ops : TxnOps Nat) (name : Option String) (imm strict : Bool) (hops : ∀ v, Accepts ops strict v v) (dw k mon ref n : Nat) (d : MeanDev)
    (steps : List (Option (List Nat))) (hs : ∀ l, some l ∈ steps → l.length = 2 ^ k ∧ ∀ x ∈ l, x < 2 ^ dw) :
    (playSb (meanRandomised dw k mon ref n d (steps ++ [none])) (addAll ops (busMonitor name) [⟨mon, ref, 0, strict⟩] (World.new imm (fun _ => [])))).sb.result = .ok () := by
  rw [C101_online_partial ops name imm _ _ (by simp) (by simp) (by simp)]
  intro i hi
  obtain rfl := List.mem_singleton.1 hi
  unfold meanRandomised
  simp only [meanReset_nil, List.nil_append]
  refine (tracks_iff ops ⟨mon, ref, 0, strict⟩ _ []).1 ?_
  cases steps with
  | nil => rfl
  | cons o r =>
    refine tracks_expect ops k mon ref strict [] o (r ++ [none]) _ ?_
    exact meanTest_tracks ops strict hops dw k mon ref r o _ hs

-- numbers of 6 bits, four at a time: with a gap, at the maximum, rounded down
example : ∀ l, some l ∈ [some [63, 63, 63, 63], none, some [1, 2, 3, 5], some [0, 0, 0, 3]] → l.length = 2 ^ 2 ∧ ∀ x ∈ l, x < 2 ^ 6 := by
  intro l hl
  simp at hl
  rcases hl with rfl | rfl | rfl <;> simp

example : meanRandomised 6 2 0 5 2 ⟨7, true⟩ [some [63, 63, 63, 63], some [0, 0, 0, 3], none, some [1, 2, 3, 5], none] =
    [.extend 5 [63], .extend 5 [0], .recv 0 63, .recv 0 0, .extend 5 [2], .recv 0 2] := by rfl

-- without an edge after the last numbers, their mean is never reported
example : meanRandomised 6 2 0 5 2 ⟨7, true⟩ [some [63, 63, 63, 63], some [0, 0, 0, 3]] = [.extend 5 [63], .extend 5 [0], .recv 0 63] := by rfl

-- with one bit less in the sum (the bug in a comment of mean.sv:31) a test fails
example : meanSum 6 1 [63, 63, 63, 63] / 2 ^ 2 ≠ 63 := by decide

end CocotbBus
