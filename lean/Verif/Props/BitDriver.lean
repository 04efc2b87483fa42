import Verif.Model.BitDriver
import Verif.Spec.DriverBase

/-! # C92: stopping and restarting a `BitDriver` -/

namespace CocotbBus
open Spec

/-- `start` is only called when nothing is running: at first, or after `stop`. -/
def StartStop : Bool → List BitOp → Prop
  | _, [] => True
  | running, .start _ :: r => running = false ∧ StartStop true r
  | _, .stop :: r => StartStop false r
  | running, _ :: r => StartStop running r

/-- No call of `start`. -/
def NoStart (ops : List BitOp) : Prop := ∀ o ∈ ops, ∀ g, o ≠ .start g

/-- At most the coroutine started last is alive, and none if nothing is running. -/
def BitInv (running : Bool) (d : BitDrv) : Prop :=
  (∀ t ∈ d.tasks.dropLast, t = .ended) ∧ (running = false → ∀ t ∈ d.tasks, t = .ended)

theorem bitEach_length (f) (l : List BitTask) : ∀ sig gen, (bitEach f l sig gen).tasks.length = l.length := by
  induction l with
  | nil => intro _ _; rfl
  | cons t r ih => intro sig gen; simp only [bitEach, List.length_cons, ih]

/-- Coroutines that have ended do nothing. -/
theorem bitEach_ended (f) (hf : ∀ sig gen, f sig gen .ended = (sig, gen, .ended)) (l l' : List BitTask) (h : ∀ t ∈ l, t = .ended) :
    ∀ sig gen, bitEach f (l ++ l') sig gen = { bitEach f l' sig gen with tasks := l ++ (bitEach f l' sig gen).tasks } := by
  induction l with
  | nil => intro _ _; rfl
  | cons t r ih =>
    intro sig gen
    have ht := h t (by simp)
    subst ht
    simp only [List.cons_append, bitEach, hf]
    rw [ih (fun t ht => h t (by simp [ht]))]

theorem bitBegin_ended (sig gen) : bitBegin sig gen .ended = (sig, gen, .ended) := rfl
theorem bitResume_ended (sig gen) : bitResume sig gen .ended = (sig, gen, .ended) := rfl

theorem bitEach_all (f) (hf : ∀ sig gen, f sig gen .ended = (sig, gen, .ended)) (l : List BitTask) (h : ∀ t ∈ l, t = .ended) (sig gen) :
    bitEach f l sig gen = ⟨sig, gen, l⟩ := by
  have := bitEach_ended f hf l [] h sig gen
  simpa [bitEach] using this

theorem BitInv.each (running : Bool) (d : BitDrv) (f) (hf : ∀ sig gen, f sig gen .ended = (sig, gen, .ended)) (h : BitInv running d) :
    BitInv running (bitEach f d.tasks d.signal d.gen) := by
  rcases List.eq_nil_or_concat d.tasks with hn | ⟨l, t, hl⟩
  · rw [hn]; exact ⟨by simp [bitEach], by simp [bitEach]⟩
  · rw [List.concat_eq_append] at hl
    have hd : ∀ t ∈ l, t = .ended := by have := h.1; rwa [hl, List.dropLast_concat] at this
    rw [hl, bitEach_ended f hf l [t] hd]
    simp only [bitEach, BitInv]
    refine ⟨by rw [List.dropLast_concat]; exact hd, fun hr => ?_⟩
    have ht : t = .ended := h.2 hr t (by rw [hl]; simp)
    subst ht
    rw [hf]
    intro u hu
    rcases List.mem_append.mp hu with hu | hu
    · exact hd u hu
    · simpa using hu

theorem BitInv.begin (running : Bool) (d : BitDrv) (h : BitInv running d) : BitInv running d.begin := h.each running d _ bitBegin_ended

theorem BitInv.run (ops : List BitOp) : ∀ (running : Bool) (d : BitDrv), BitInv running d → StartStop running ops → ∃ r, BitInv r (d.run ops).1 := by
  induction ops with
  | nil => intro running d h _; exact ⟨running, h⟩
  | cons o r ih =>
    intro running d h hs
    cases o with
    | start g =>
      obtain ⟨rfl, hs⟩ := hs
      refine ih true _ ⟨?_, by simp⟩ hs
      simp only [BitDrv.step, List.dropLast_concat]
      exact h.2 rfl
    | stop =>
      refine ih false _ ?_ hs
      simp only [BitDrv.step]
      split
      · rename_i hn; exact ⟨by rw [hn]; simp, by rw [hn]; simp⟩
      · refine ⟨by simpa using h.1, fun _ t ht => ?_⟩
        simp only [List.mem_append, List.mem_singleton] at ht
        rcases ht with ht | ht
        · exact h.1 t ht
        · exact ht
    | run => exact ih running _ (h.begin running d) hs
    | edge => exact ih running _ ((h.begin running d).each running _ _ bitResume_ended) hs

/-- With nothing alive, nothing happens. -/
theorem bitRun_dead (ops : List BitOp) (hno : NoStart ops) : ∀ d : BitDrv, (∀ t ∈ d.tasks, t = .ended) →
    (d.run ops).1.signal = d.signal ∧ ∀ v ∈ (d.run ops).2, v = d.signal := by
  induction ops with
  | nil => intro d _; exact ⟨rfl, by simp [BitDrv.run]⟩
  | cons o r ih =>
    intro d h
    have hno' : NoStart r := fun o ho => hno o (by simp [ho])
    have hb : d.begin = d := bitEach_all _ bitBegin_ended _ h _ _
    cases o with
    | start g => exact absurd rfl (hno _ (by simp) g)
    | stop =>
      have hstep : (d.step .stop).1.signal = d.signal ∧ ∀ t ∈ (d.step .stop).1.tasks, t = .ended := by
        simp only [BitDrv.step]
        split
        · exact ⟨rfl, h⟩
        · refine ⟨rfl, fun t ht => ?_⟩
          simp only [List.mem_append, List.mem_singleton] at ht
          rcases ht with ht | ht
          · exact h t (List.dropLast_subset _ ht)
          · exact ht
      have := ih hno' _ hstep.2
      rw [hstep.1] at this
      exact this
    | run =>
      have := ih hno' d.begin (by rw [hb]; exact h)
      rw [hb] at this
      simpa only [BitDrv.run, BitDrv.step, hb] using this
    | edge =>
      have he : bitEach bitResume d.tasks d.signal d.gen = d := bitEach_all _ bitResume_ended _ h _ _
      have := ih hno' d h
      simp only [BitDrv.run, BitDrv.step, hb, he, BitDrv.sampled]
      refine ⟨this.1, fun v hv => ?_⟩
      rcases List.mem_cons.mp hv with hv | hv
      · exact hv
      · exact this.2 v hv

/-- C92, proved part: if `start` is only called at first and after `stop`, the signal does not change after `stop`, whenever it is called and
whatever happens afterwards, until the next `start`. Missing: `start` while already started, see `C92_violated`. -/
theorem C92_stop_partial (sig : Logic) (g : Option (List (Nat × Nat))) (ops after : List BitOp) (h : StartStop false ops) (hno : NoStart after) :
    let d := ((BitDrv.init sig g).run ops).1
    let e := (d.step .stop).1
    e.signal = d.signal ∧ (e.run after).1.signal = d.signal ∧ ∀ v ∈ (e.run after).2, v = d.signal := by
  intro d e
  obtain ⟨r, hi⟩ := BitInv.run ops false (BitDrv.init sig g) ⟨by simp [BitDrv.init], by simp [BitDrv.init]⟩ h
  have hall : (∀ t ∈ e.tasks, t = .ended) ∧ e.signal = d.signal := by
    show (∀ t ∈ (d.step .stop).1.tasks, t = .ended) ∧ (d.step .stop).1.signal = d.signal
    simp only [BitDrv.step]
    split
    · rename_i hn; exact ⟨by rw [hn]; simp, rfl⟩
    · refine ⟨fun t ht => ?_, rfl⟩
      simp only [List.mem_append, List.mem_singleton] at ht
      rcases ht with ht | ht
      · exact hi.1 t ht
      · exact ht
  have := bitRun_dead after hno e hall.1
  rw [hall.2] at this
  exact ⟨hall.2, this⟩

/-- C92 is false of the code if `start` is called twice: `stop` ends only one of the two coroutines, and the other goes on changing the
signal; it then uses the generator of the other. -/
theorem C92_violated :
    let d := ((BitDrv.init .zero none).run [.start (some [(2, 2), (1, 1)]), .edge, .start (some [(3, 1), (1, 1)]), .edge]).1
    ((d.step .stop).1.run (List.replicate 4 .edge)).2 = [.zero, .zero, .one, .zero] ∧ d.signal = .zero := by
  decide

/-- What is still to come from a coroutine. -/
def bitPending (gen : Option (List (Nat × Nat))) : BitTask → List Logic
  | .high n off => List.replicate n .one ++ List.replicate off .zero ++ wave (gen.getD [])
  | .low n => List.replicate n .zero ++ wave (gen.getD [])
  | _ => []

/-- The signal is what a coroutine has driven. -/
def BitHolds (sig : Logic) : BitTask → Prop
  | .high n _ => n > 0 ∧ sig = .one
  | .low n => n > 0 ∧ sig = .zero
  | .ended => True
  | .new _ => False

theorem bitTop_pending (g : List (Nat × Nat)) : ∀ sig, bitPending (some (bitTop g sig).2.1) (bitTop g sig).2.2 = wave g ∧
    BitHolds (bitTop g sig).1 (bitTop g sig).2.2 := by
  induction g with
  | nil => intro sig; exact ⟨rfl, trivial⟩
  | cons p r ih =>
    obtain ⟨on, off⟩ := p
    intro sig
    unfold bitTop
    by_cases h1 : on > 0
    · rw [if_pos h1]; exact ⟨by simp [bitPending, wave], h1, rfl⟩
    · rw [if_neg h1]
      have h1 : on = 0 := by omega
      subst h1
      by_cases h2 : off > 0
      · rw [if_pos h2]; exact ⟨by simp [bitPending, wave], h2, rfl⟩
      · rw [if_neg h2]
        have h2 : off = 0 := by omega
        subst h2
        simpa [wave] using ih .zero

theorem bitLoop_pending (g : List (Nat × Nat)) (sig) : bitPending (bitLoop sig (some g)).2.1 (bitLoop sig (some g)).2.2 = wave g ∧
    BitHolds (bitLoop sig (some g)).1 (bitLoop sig (some g)).2.2 ∧ ∃ g', (bitLoop sig (some g)).2.1 = some g' := by
  have := bitTop_pending g sig
  exact ⟨this.1, this.2, _, rfl⟩

theorem bitResume_pending (t : BitTask) (sig) (g : List (Nat × Nat)) (h : BitHolds sig t) (v : Logic) (w : List Logic) (hp : bitPending (some g) t = v :: w) :
    sig = v ∧ bitPending (bitResume sig (some g) t).2.1 (bitResume sig (some g) t).2.2 = w ∧
    BitHolds (bitResume sig (some g) t).1 (bitResume sig (some g) t).2.2 ∧ ∃ g', (bitResume sig (some g) t).2.1 = some g' := by
  cases t with
  | new _ => exact h.elim
  | ended => cases hp
  | high n off =>
    obtain ⟨hn, rfl⟩ := h
    obtain ⟨m, rfl⟩ : ∃ m, n = m + 1 := ⟨n - 1, by omega⟩
    simp only [bitPending, List.replicate_succ, List.cons_append, List.cons.injEq] at hp
    obtain ⟨rfl, rfl⟩ := hp
    refine ⟨rfl, ?_⟩
    have e : bitResume .one (some g) (.high (m + 1) off) = if m + 1 > 1 then (.one, some g, .high (m + 1 - 1) off)
        else if off > 0 then (.zero, some g, .low off) else bitLoop .zero (some g) := rfl
    rw [e]
    by_cases h1 : m + 1 > 1
    · rw [if_pos h1]; exact ⟨by simp [bitPending], ⟨by omega, rfl⟩, g, rfl⟩
    · rw [if_neg h1]
      have h1 : m = 0 := by omega
      subst h1
      by_cases h2 : off > 0
      · rw [if_pos h2]; exact ⟨by simp [bitPending], ⟨h2, rfl⟩, g, rfl⟩
      · rw [if_neg h2]
        have h2 : off = 0 := by omega
        subst h2
        simpa using bitLoop_pending g .zero
  | low n =>
    obtain ⟨hn, rfl⟩ := h
    obtain ⟨m, rfl⟩ : ∃ m, n = m + 1 := ⟨n - 1, by omega⟩
    simp only [bitPending, List.replicate_succ, List.cons_append, List.cons.injEq] at hp
    obtain ⟨rfl, rfl⟩ := hp
    refine ⟨rfl, ?_⟩
    have e : bitResume .zero (some g) (.low (m + 1)) = if m + 1 > 1 then (.zero, some g, .low (m + 1 - 1)) else bitLoop .zero (some g) := rfl
    rw [e]
    by_cases h1 : m + 1 > 1
    · rw [if_pos h1]; exact ⟨by simp [bitPending], ⟨by omega, rfl⟩, g, rfl⟩
    · rw [if_neg h1]
      have h1 : m = 0 := by omega
      subst h1
      simpa using bitLoop_pending g .zero

theorem bitRun_wave (n : Nat) : ∀ (l : List BitTask) (t : BitTask) (sig) (g : List (Nat × Nat)), (∀ t ∈ l, t = .ended) → BitHolds sig t →
    n ≤ (bitPending (some g) t).length →
    ((⟨sig, some g, l ++ [t]⟩ : BitDrv).run (List.replicate n .edge)).2 = (bitPending (some g) t).take n := by
  induction n with
  | zero => intro l t sig g _ _ _; rfl
  | succ n ih =>
    intro l t sig g hl ht hn
    cases hp : bitPending (some g) t with
    | nil => rw [hp] at hn; simp at hn
    | cons v w =>
      obtain ⟨rfl, h1, h2, g', h3⟩ := bitResume_pending t sig g ht v w hp
      have hbt : bitBegin sig (some g) t = (sig, some g, t) := by cases t <;> first | rfl | exact ht.elim
      have hb : (⟨sig, some g, l ++ [t]⟩ : BitDrv).begin = ⟨sig, some g, l ++ [t]⟩ := by
        show bitEach bitBegin (l ++ [t]) sig (some g) = _
        rw [bitEach_ended _ bitBegin_ended l [t] hl]
        simp [bitEach, hbt]
      have he : bitEach bitResume (l ++ [t]) sig (some g) =
          ⟨(bitResume sig (some g) t).1, some g', l ++ [(bitResume sig (some g) t).2.2]⟩ := by
        rw [bitEach_ended _ bitResume_ended l [t] hl]
        simp [bitEach, h3]
      rw [h3] at h1
      have := ih l (bitResume sig (some g) t).2.2 (bitResume sig (some g) t).1 g' hl h2 (by rw [h1]; rw [hp] at hn; simpa using hn)
      simp only [List.replicate_succ, BitDrv.run, BitDrv.step, BitDrv.sampled, hb, he, this, h1, List.take_succ_cons]

/-- C92: after `stop`, a `start` with a generator produces the waveform of that generator from its beginning, whatever came before; a
`start` without one produces the waveform of the pairs which have not been used (a pair under way at the `stop` is not completed). -/
theorem C92_restart (sig : Logic) (g0 : Option (List (Nat × Nat))) (ops : List BitOp) (h : StartStop false ops) (given : Option (List (Nat × Nat)))
    (g : List (Nat × Nat)) (n : Nat) (hn : n ≤ (wave g).length)
    (hg : given = some g ∨ given = none ∧ (((BitDrv.init sig g0).run ops).1.step .stop).1.gen = some g) :
    (((((BitDrv.init sig g0).run ops).1.step .stop).1).run (.start given :: List.replicate n .edge)).2 = (wave g).take n := by
  obtain ⟨r, hi⟩ := BitInv.run ops false (BitDrv.init sig g0) ⟨by simp [BitDrv.init], by simp [BitDrv.init]⟩ h
  generalize hd : ((BitDrv.init sig g0).run ops).1 = d at hi hg
  have hall : ∀ t ∈ (d.step .stop).1.tasks, t = .ended := by
    simp only [BitDrv.step]
    split
    · rename_i hn; rw [hn]; simp
    · intro t ht
      simp only [List.mem_append, List.mem_singleton] at ht
      rcases ht with ht | ht
      · exact hi.1 t ht
      · exact ht
  generalize (d.step .stop).1 = e at hall hg
  cases n with
  | zero => simp [BitDrv.run]
  | succ n =>
    have hbeg : bitBegin e.signal e.gen (.new given) = bitLoop e.signal (some g) := by
      rcases hg with rfl | ⟨rfl, hg⟩
      · rfl
      · show bitLoop e.signal e.gen = _; rw [hg]
    obtain ⟨h1, h2, g', h3⟩ := bitLoop_pending g e.signal
    have hb : (⟨e.signal, e.gen, e.tasks ++ [.new given]⟩ : BitDrv).begin =
        ⟨(bitLoop e.signal (some g)).1, some g', e.tasks ++ [(bitLoop e.signal (some g)).2.2]⟩ := by
      show bitEach bitBegin (e.tasks ++ [.new given]) e.signal e.gen = _
      rw [bitEach_ended _ bitBegin_ended e.tasks _ hall]
      simp [bitEach, hbeg, h3]
    have hbb : (⟨e.signal, e.gen, e.tasks ++ [.new given]⟩ : BitDrv).begin.begin = (⟨e.signal, e.gen, e.tasks ++ [.new given]⟩ : BitDrv).begin := by
      rw [hb]
      show bitEach bitBegin _ _ _ = _
      rw [bitEach_ended _ bitBegin_ended e.tasks _ hall]
      generalize (bitLoop e.signal (some g)).2.2 = t at h2
      have : ∀ s, bitBegin s (some g') t = (s, some g', t) := by intro s; cases t <;> first | rfl | exact h2.elim
      simp [bitEach, this]
    have hrun : ((e.step (.start given)).1.run (List.replicate (n + 1) .edge)).2 = ((⟨e.signal, e.gen, e.tasks ++ [.new given]⟩ : BitDrv).begin.run (List.replicate (n + 1) .edge)).2 := by
      simp only [List.replicate_succ, BitDrv.run, BitDrv.step, BitDrv.sampled, hbb]
    show ((e.step (.start given)).1.run (List.replicate (n + 1) .edge)).2 = _
    rw [h3] at h1
    rw [hrun, hb, bitRun_wave (n + 1) e.tasks _ _ _ hall h2 (by rw [h1]; exact hn), h1]

example : StartStop false [.start (some [(2, 2), (1, 1), (3, 0)]), .edge, .edge, .edge, .stop, .edge, .start none, .run, .edge] ∧
    NoStart [.edge, .run, .edge, .stop, .edge] := by
  refine ⟨⟨rfl, rfl, trivial⟩, ?_⟩
  intro o ho g h
  subst h
  simp at ho

/-- Stopped after one of the four cycles of the first pair, and started again without a generator: the second pair comes next. -/
example : ((BitDrv.init .x (some [(2, 2), (1, 1), (3, 0)])).run [.start none, .edge, .stop, .edge, .edge, .edge, .start none, .edge, .edge, .edge]).2 =
    [.one, .one, .one, .one, .one, .zero, .one] := by decide

end CocotbBus
