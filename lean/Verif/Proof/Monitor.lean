import Verif.Spec.Monitor

/-! Lemmas about `Verif.Model.Monitor`. -/

namespace CocotbBus
open Spec
variable {T σ : Type}

/-- recorded callbacks, numbered from `i` -/
def recFrom (i : Nat) : List (Callback T σ) → List (Callback T (σ × List (Nat × T)))
  | [] => []
  | c :: r => recorded i c :: recFrom (i + 1) r

theorem recFrom_length (i : Nat) (cs : List (Callback T σ)) : (recFrom i cs).length = cs.length := by
  induction cs generalizing i with
  | nil => rfl
  | cons c r ih => simp [recFrom, ih]

theorem recFrom_append (i : Nat) (cs : List (Callback T σ)) (c : Callback T σ) :
    recFrom i (cs ++ [c]) = recFrom i cs ++ [recorded (i + cs.length) c] := by
  induction cs generalizing i with
  | nil => rfl
  | cons c' r ih => simp [recFrom, ih, Nat.add_assoc, Nat.add_comm 1]

theorem runCallbacks_recFrom (cs : List (Callback T σ)) (hn : ∀ c ∈ cs, ∀ t w, (c t w).2 = none) (i : Nat) (t : T)
    (s : σ) (log : List (Nat × T)) :
    ∃ s', runCallbacks (recFrom i cs) t (s, log) =
      ((s', log ++ (List.range' i cs.length).map (fun j => (j, t))), none) := by
  induction cs generalizing i s log with
  | nil => exact ⟨s, by simp [recFrom, runCallbacks]⟩
  | cons c r ih =>
    obtain ⟨s', hs'⟩ := ih (fun c hc => hn c (List.mem_cons_of_mem _ hc)) (i + 1) (c t s).1 (log ++ [(i, t)])
    refine ⟨s', ?_⟩
    have h0 := hn c (List.mem_cons_self ..) t s
    simp only [recFrom, runCallbacks, recorded, h0]
    rw [hs']
    simp [List.range'_succ]

theorem play_spec (h : List (MonOp T σ)) (hn : NoRaise h) (cs : List (Callback T σ))
    (hcs : ∀ c ∈ cs, ∀ t w, (c t w).2 = none) (m : Monitor T (σ × List (Nat × T)))
    (hm : m.callbacks = recFrom 0 cs) (s : σ) (log : List (Nat × T)) :
    ∃ m' s', play h m (s, log) = (m', (s', log ++ invocations cs.length h), none) ∧
      m'.received = m.received + (transactions h).length ∧
      m'.queue = m.queue ++ (if cs.isEmpty then beforeCallbacks h else []) ∧
      m'.hasEvent = m.hasEvent ∧
      m'.eventSets = m.eventSets ++ (if m.hasEvent then transactions h else []) := by
  induction h generalizing cs m s log with
  | nil => refine ⟨m, s, by simp [play, invocations], ?_⟩; simp [transactions, beforeCallbacks]
  | cons o r ih =>
    have hnr : NoRaise r := fun c hc => hn c (List.mem_cons_of_mem _ hc)
    cases o with
    | add c =>
      have hc := hn c (List.mem_cons_self ..)
      have hcs' : ∀ c' ∈ cs ++ [c], ∀ t w, (c' t w).2 = none := by
        intro c' h'
        rcases List.mem_append.1 h' with h' | h'
        · exact hcs c' h'
        · rw [List.mem_singleton.1 h']; exact hc
      obtain ⟨m', s', h1, h2, h3, h4, h5⟩ := ih hnr (cs ++ [c]) hcs'
        (m.addCallback (recorded m.callbacks.length c))
        (by simp [Monitor.addCallback, recFrom_append, hm, recFrom_length]) s log
      refine ⟨m', s', ?_, ?_, ?_, ?_, ?_⟩
      · simp only [play, invocations]
        rw [h1]; simp
      · rw [h2]; rfl
      · rw [h3]
        simp only [Monitor.addCallback, beforeCallbacks]
        simp
      · rw [h4]; rfl
      · rw [h5]; rfl
    | recv t =>
      obtain ⟨s1, hs1⟩ := runCallbacks_recFrom cs hcs 0 t s log
      have hr : m.recv t (s, log) =
          (((m.recv t (s, log)).1), (s1, log ++ (List.range cs.length).map (fun j => (j, t))), none) := by
        unfold Monitor.recv
        simp only [hm]
        rw [hs1]
        simp [List.range_eq_range']
      have hm' : (m.recv t (s, log)).1.callbacks = recFrom 0 cs := by
        unfold Monitor.recv
        simp only [hm]
        rw [hs1]
        simp only
        split <;> split <;> rfl
      have hrec : (m.recv t (s, log)).1.received = m.received + 1 := by
        unfold Monitor.recv
        simp only [hm]
        rw [hs1]
        simp only
        split <;> split <;> rfl
      have hev : (m.recv t (s, log)).1.hasEvent = m.hasEvent := by
        unfold Monitor.recv
        simp only [hm]
        rw [hs1]
        simp only
        split <;> split <;> rfl
      have hes : (m.recv t (s, log)).1.eventSets = m.eventSets ++ (if m.hasEvent then [t] else []) := by
        unfold Monitor.recv
        simp only [hm]
        rw [hs1]
        simp only
        split <;> by_cases hh : m.hasEvent <;> simp [hh]
      have hq : (m.recv t (s, log)).1.queue = m.queue ++ (if cs.isEmpty then [t] else []) := by
        unfold Monitor.recv
        simp only [hm]
        rw [hs1]
        simp only
        have : (recFrom 0 cs).isEmpty = cs.isEmpty := by cases cs <;> rfl
        rw [this]
        cases cs.isEmpty <;> simp only [if_true, Bool.false_eq_true, if_false] <;> split <;> simp
      obtain ⟨m', s', h1, h2, h3, h4, h5⟩ := ih hnr cs hcs (m.recv t (s, log)).1 hm' s1
        (log ++ (List.range cs.length).map (fun j => (j, t)))
      refine ⟨m', s', ?_, ?_, ?_, ?_, ?_⟩
      · simp only [play]
        rw [hr]
        simp only
        rw [h1]
        simp [invocations]
      · rw [h2, hrec]; simp [transactions]; omega
      · rw [h3, hq]
        cases cs.isEmpty <;> simp [beforeCallbacks]
      · rw [h4, hev]
      · rw [h5, hes, hev]
        cases m.hasEvent <;> simp [transactions]

theorem filter_range_map (k i : Nat) (t : T) :
    (((List.range k).map (fun j => (j, t))).filter (fun p => p.1 = i)).map Prod.snd = if i < k then [t] else [] := by
  induction k with
  | zero => simp
  | succ k ih =>
    rw [List.range_succ, List.map_append, List.filter_append, List.map_append, ih]
    by_cases h : i < k
    · have h1 : k ≠ i := by omega
      simp [h, h1, Nat.lt_succ_of_lt h]
    · by_cases h2 : i = k
      · subst h2; simp
      · have h1 : k ≠ i := by omega
        have h3 : ¬ i < k + 1 := by omega
        simp [h, h1, h3]

theorem invocations_old (k i : Nat) (h : List (MonOp T σ)) (hi : i < k) :
    ((invocations k h).filter (fun p => p.1 = i)).map Prod.snd = transactions h := by
  induction h generalizing k with
  | nil => rfl
  | cons o r ih =>
    cases o with
    | add c => exact ih (k + 1) (by omega)
    | recv t =>
      simp only [invocations, List.filter_append, List.map_append]
      rw [filter_range_map, ih k hi, if_pos hi]
      rfl

theorem invocations_filter (k i : Nat) (h : List (MonOp T σ)) :
    ((invocations k h).filter (fun p => p.1 = k + i)).map Prod.snd = afterRegistration h i := by
  induction h generalizing k i with
  | nil => rfl
  | cons o r ih =>
    cases o with
    | add c =>
      cases i with
      | zero => exact invocations_old (k + 1) k r (by omega)
      | succ i =>
        have := ih (k + 1) i
        rw [show k + 1 + i = k + (i + 1) by omega] at this
        exact this
    | recv t =>
      simp only [invocations, List.filter_append, List.map_append]
      rw [filter_range_map, ih k i, if_neg (by omega)]
      rfl

/-! ### wait_for_recv -/

theorem run_append (s : WaitSys T) (a b : List (WaitOp T)) :
    s.run (a ++ b) = match s.run a with
      | some s' => s'.run b
      | none => none := by
  induction a generalizing s with
  | nil => rfl
  | cons o r ih =>
    simp only [List.cons_append, WaitSys.run]
    cases s.step o with
    | none => rfl
    | some s' => exact ih s'

/-- Steps that do not concern task `w` and are not receptions leave it alone. -/
theorem step_other (s s' : WaitSys T) (o : WaitOp T) (w : Nat) (h : s.step o = some s')
    (h1 : ∀ t, o ≠ .recv t) (h2 : ∀ x, o ≠ .start w x) (h3 : o ≠ .timer w) (h4 : o ≠ .resume w) :
    s'.tasks w = s.tasks w ∧ s'.data = s.data := by
  cases o with
  | recv t => exact absurd rfl (h1 t)
  | start w' x =>
    have hne : w ≠ w' := fun e => h2 x (by rw [e])
    simp only [WaitSys.step] at h
    split at h
    · split at h <;> cases h <;> simp [WaitSys.setTask, hne]
    · cases h
  | timer w' =>
    have hne : w ≠ w' := fun e => h3 (by rw [e])
    simp only [WaitSys.step] at h
    split at h
    · cases h; simp [WaitSys.setTask, hne]
    · cases h
  | resume w' =>
    have hne : w ≠ w' := fun e => h4 (by rw [e])
    simp only [WaitSys.step] at h
    split at h
    · cases h; simp [WaitSys.setTask, hne]
    · cases h; simp [WaitSys.setTask, hne]
    · cases h

theorem step_start (s s' : WaitSys T) (w : Nat) (x : Option Nat) (h : s.step (.start w x) = some s') :
    s.tasks w = .idle ∧ ∃ b, s'.tasks w = .waiting b := by
  cases hw : s.tasks w with
  | idle =>
    refine ⟨rfl, ?_⟩
    simp only [WaitSys.step, hw] at h
    split at h <;> cases h <;> simp [WaitSys.setTask]
  | _ => simp [WaitSys.step, hw] at h

end CocotbBus
