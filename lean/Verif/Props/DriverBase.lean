import Verif.Proof.DriverBase

/-! # Properties C16, C18, C19 (C17 is in `Props/AvalonST.lean`) -/

namespace CocotbBus
open Spec Coro

/-! ### C16 -/

/-- C16: whatever the generator and however many clock edges occur, the values sampled at the edges are the
programmed waveform, cut off at the end of the simulation; once the whole waveform is out the coroutine
fails with RuntimeError and the signal is 0, before that it is waiting. -/
theorem C16_waveform {I : Type} (stored : Option (List (Nat × Nat))) (g : List (Nat × Nat)) (s : Sim I Logic)
    (hs : s.phase ≠ .ro) :
    let r := crTwiddler stored (some g) s
    r.1.map Prod.fst = (wave g).take s.rest.length ∧
    (s.rest.length < (wave g).length → ∃ s', r.2 = .blocked s') ∧
    ((wave g).length ≤ s.rest.length → ∃ s', r.2 = .err .runtimeError s' ∧ (g ≠ [] → s'.out = .zero)) := by
  obtain ⟨h1, h2⟩ := twiddle_run g s hs
  refine ⟨h1, ?_, ?_⟩
  · intro h
    rw [if_neg (by omega)] at h2
    exact h2
  · intro h
    rw [if_pos h] at h2
    obtain ⟨s', a, b⟩ := h2
    exact ⟨s', a, fun hg => by rw [b, if_neg hg]⟩

/-- C16: without any generator the coroutine fails at once, driving nothing; a generator given to the constructor is
used when `start` is given none; `stop` before `start` is an error. -/
theorem C16_no_generator {I : Type} (s : Sim I Logic) (g : List (Nat × Nat)) :
    crTwiddler (none : Option (List (Nat × Nat))) none s = ([], .err (.other 0) s) ∧
    crTwiddler (I := I) (some g) none = crTwiddler none (some g) ∧
    bitStop false = .error .attributeError ∧ bitStop true = .ok () := ⟨rfl, rfl, rfl, rfl⟩

example : (crTwiddler none (some [(2, 1), (0, 0), (0, 2), (1, 0)])
    (⟨.mid, .x, (), (), List.replicate 5 ()⟩ : Sim Unit Logic)).1.map Prod.fst = [.one, .one, .zero, .zero, .zero] := by
  decide +kernel

/-! ### C18 -/

/-- C18: up to the first poll that ends the attachment, exactly the payloads are appended, in order; one poll is made per edge
and none after the end; an empty payload ends it normally, an error with that error. -/
theorem C18_socket (pre : List SockRes) (hpre : ∀ x ∈ pre, ends x = false) (last : SockRes) (post : List SockRes) :
    (socketAttach pre = (pre.filterMap payload?, pre.length, .running)) ∧
    (last = .data [] → socketAttach (pre ++ last :: post) = (pre.filterMap payload?, pre.length + 1, .closed)) ∧
    (∀ e, last = .error e → socketAttach (pre ++ last :: post) = (pre.filterMap payload?, pre.length + 1, .raised e)) := by
  induction pre with
  | nil =>
    refine ⟨rfl, ?_, ?_⟩
    · rintro rfl; simp [socketAttach]
    · rintro e rfl; simp [socketAttach]
  | cons x r ih =>
    obtain ⟨h1, h2, h3⟩ := ih (fun y hy => hpre y (by simp [hy]))
    have hx := hpre x (by simp)
    cases x with
    | wouldBlock =>
      refine ⟨?_, ?_, ?_⟩
      · simp [socketAttach, h1, payload?, List.filterMap_cons]
      · intro h; simp [socketAttach, h2 h, payload?, List.filterMap_cons]
      · intro e h; simp [socketAttach, h3 e h, payload?, List.filterMap_cons]
    | error e => simp [ends] at hx
    | data b =>
      have hb : 0 < b.length := by simp [ends] at hx; exact List.length_pos_iff.2 hx
      refine ⟨?_, ?_, ?_⟩
      · simp [socketAttach, hb, h1, payload?]
      · intro h; simp [socketAttach, hb, h2 h, payload?]
      · intro e h; simp [socketAttach, hb, h3 e h, payload?]

example : socketAttach [.wouldBlock, .data [1, 2], .wouldBlock, .data [3], .data [], .data [4]] = ([[1, 2], [3]], 5, .closed) := by
  decide

/-! ### C19 -/

/-- C19 is false of the code: sending on a plain BusDriver never changes any signal, at any edge, whatever
the bus and the transaction. -/
theorem C19_no_effect {I V : Type} (txn : String → Option V) (sync : Bool) (s : Sim I (BusState V)) :
    (busDriverSend txn sync s).2.sim.out.signals = s.out.signals ∧
    ∀ p ∈ (busDriverSend txn sync s).1, p.1.signals = s.out.signals := by
  have hw (s : Sim I (BusState V)) : ((write (assignValue .bus "value" txn) : M I (BusState V) Unit) s).1 = [] ∧
      ((write (assignValue .bus "value" txn) : M I (BusState V) Unit) s).2.sim.out.signals = s.out.signals := by
    unfold write; split <;> simp [End.sim, assignValue]
  cases sync with
  | false =>
    simp only [busDriverSend, Bool.false_eq_true, if_false]
    exact ⟨(hw s).2, by simp [(hw s).1]⟩
  | true =>
    cases h : s.rest with
    | nil => simp [busDriverSend, bind_awaitEdge_nil _ s h, End.sim]
    | cons i r =>
      simp only [busDriverSend, if_true, bind_awaitEdge_cons _ s i r h]
      exact ⟨(hw _).2, by simp [(hw _).1]⟩

/-- C19 is false of the code: a bus whose signal `d` (handle 7) is at 0, and a transaction with `d = 5` -/
theorem C19_violated : ∃ (b : Bus) (txn : String → Option Nat) (s s' : Sim Unit (BusState Nat)),
    (busDriverSend txn true s).2 = .ok () s' ∧ b.signals = [("d", some 7)] ∧ txn "d" = some 5 ∧ s'.out.signals 7 = 0 ∧
    (b.drive txn s.out.signals).1 7 = 5 :=
  ⟨⟨[("d", some 7)]⟩, fun a => if a = "d" then some 5 else none, ⟨.mid, ⟨fun _ => 0, []⟩, (), (), [()]⟩, _, rfl, rfl, rfl, rfl, rfl⟩

/-- C19, proved part: the call returns after exactly one rising edge (none if `sync=False`). Missing: the
effect on the signals (`C19_violated`). -/
theorem C19_timing_partial {I V : Type} (txn : String → Option V) (s : Sim I (BusState V)) (hs : s.phase ≠ .ro) :
    (∃ s', busDriverSend txn false s = ([], .ok () s') ∧ s'.rest = s.rest) ∧
    (∀ i r, s.rest = i :: r → ∃ s', busDriverSend txn true s = ([(s.out, s.cur)], .ok () s') ∧ s'.rest = r) := by
  refine ⟨⟨{ s with out := assignValue .bus "value" txn s.out }, ?_, rfl⟩, ?_⟩
  · simp only [busDriverSend, Bool.false_eq_true, if_false]
    exact write_ok _ s hs
  intro i r h
  exact ⟨_, by
    simp only [busDriverSend, if_true, bind_awaitEdge_cons _ s i r h]
    rw [write_ok _ _ (by simp)], rfl⟩

end CocotbBus
