import Verif.Proof.Causal

/-! # A causal coroutine and a device: there is a simulation of every length in which the device drives the inputs -/

namespace CocotbBus
open Coro
variable {I O α D : Type}

/-- the device in state `d` drives the inputs of this trace, and then `i` -/
def Answers (step : D → O → D) (drv : D → I → Prop) : D → List (O × I) → I → Prop
  | d, [], i => drv d i
  | d, q :: t, i => drv d q.2 ∧ Answers step drv (step d q.1) t i

theorem Answers.snoc (step : D → O → D) (drv : D → I → Prop) (t : List (O × I)) : ∀ (d : D) (q : O × I) (i : I), Answers step drv d t q.2 →
    drv (step (t.foldl (fun d q => step d q.1) d) q.1) i → Answers step drv d (t ++ [q]) i := by
  induction t with
  | nil => intro d q i h hi; exact ⟨h, hi⟩
  | cons p t ih => intro d q i h hi; exact ⟨h.1, ih _ q i h.2 hi⟩

/-- `paced` says that the trace records the inputs of the cycles passed -/
theorem closed_exists (step : D → O → D) (drv : D → I → Prop) (hdrv : ∀ d, ∃ i, drv d i) (x : M I O α) (hx : Causal x) (start : I → List I → Sim I O)
    (hsnoc : ∀ i R j, start i (R ++ [j]) = (start i R).snoc j)
    (paced : ∀ i R, i :: R = (x (start i R)).1.map Prod.snd ++ (x (start i R)).2.sim.cur :: (x (start i R)).2.sim.rest)
    (d : D) (N : Nat) : ∃ i R, R.length = N ∧ (∀ j ∈ i :: R, ∃ d, drv d j) ∧ Answers step drv d (x (start i R)).1 (x (start i R)).2.sim.cur := by
  induction N with
  | zero =>
    obtain ⟨i, hi⟩ := hdrv d
    refine ⟨i, [], rfl, fun j hj => ⟨d, by rw [List.mem_singleton.1 hj]; exact hi⟩, ?_⟩
    have hp := paced i []
    generalize x (start i []) = r at hp
    obtain ⟨t, e⟩ := r
    cases t with
    | nil =>
      simp only [List.map_nil, List.nil_append, List.cons.injEq] at hp
      show drv d e.sim.cur
      rw [← hp.1]; exact hi
    | cons q t =>
      have := congrArg List.length hp
      simp at this
  | succ N ih =>
    obtain ⟨i, R, hR, hall, ha⟩ := ih
    obtain ⟨hl, hext⟩ := hx (start i R)
    have hpace := paced i R
    have mem : ∀ (j : I), (∃ d, drv d j) → ∀ k ∈ i :: (R ++ [j]), ∃ d, drv d k := by
      intro j hj k hk
      rcases List.mem_append.1 (show k ∈ (i :: R) ++ [j] from hk) with hk | hk
      · exact hall k hk
      · rw [List.mem_singleton.1 hk]; exact hj
    cases hr : x (start i R) with
    | mk t e =>
      rw [hr] at hl ha hpace
      cases e with
      | ok a s' =>
        obtain ⟨j, hj⟩ := hdrv d
        refine ⟨i, R ++ [j], by simp [hR], mem j ⟨d, hj⟩, ?_⟩
        have h := hext j
        rw [hr] at h
        have h : x ((start i R).snoc j) = (t, .ok a (s'.snoc j)) := h
        rw [hsnoc, h]; exact ha
      | err a s' =>
        obtain ⟨j, hj⟩ := hdrv d
        refine ⟨i, R ++ [j], by simp [hR], mem j ⟨d, hj⟩, ?_⟩
        have h := hext j
        rw [hr] at h
        have h : x ((start i R).snoc j) = (t, .err a (s'.snoc j)) := h
        rw [hsnoc, h]; exact ha
      | blocked s' =>
        obtain ⟨j, hj⟩ := hdrv (step (t.foldl (fun d q => step d q.1) d) s'.out)
        refine ⟨i, R ++ [j], by simp [hR], mem j ⟨_, hj⟩, ?_⟩
        have h := hext j
        rw [hr] at h
        rcases h with h | ⟨h3, q, t', e, h4, h5⟩
        · rw [hsnoc, h]; exact ha
        · have hp := paced i (R ++ [j])
          rw [hsnoc, h4] at hp ⊢
          have hpace : i :: R = t.map Prod.snd ++ s'.cur :: s'.rest := hpace
          rw [h3] at hpace
          have hp : i :: (R ++ [j]) = (t ++ q :: t').map Prod.snd ++ e.sim.cur :: e.sim.rest := hp
          rw [← List.cons_append, hpace] at hp
          simp only [List.map_append, List.map_cons, List.append_assoc, List.cons_append, List.nil_append, List.append_cancel_left_eq, List.cons.injEq] at hp
          obtain ⟨e1, e2⟩ := hp
          cases t' with
          | cons y z =>
            have := congrArg List.length e2
            simp at this
          | nil =>
            simp only [List.map_nil, List.nil_append, List.cons.injEq] at e2
            refine Answers.snoc step drv t d q _ ?_ ?_
            · rw [← e1]; exact ha
            · show drv _ e.sim.cur
              rw [← e2.1, h5]; exact hj

end CocotbBus
