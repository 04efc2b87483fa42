import Verif.Proof.MmTasksAll

/-! # Two tasks that use one Avalon-MM master and pause between their calls -/

namespace CocotbBus
open Coro Spec

/-- what may come after a call -/
def After (ops : List MmOp) : Prop := ops = [] ∨ ∃ n r, ops = .pause (n + 1) :: r ∧ Polite r

def politeSt : TaskSt → Prop
  | .idle ops => Polite ops
  | .paused _ ops => Polite ops
  | .waiting _ ops => After ops
  | .woken _ ops => After ops
  | .ready _ ops => After ops
  | .atEdge _ ops => After ops
  | .atRO _ _ ops => After ops
  | .atNext _ ops => After ops
  | .dead _ => True

/-- does not call before the next edge -/
def resting : TaskSt → Bool
  | .idle [] => true
  | .idle (.pause (_ + 1) :: _) => true
  | .paused _ _ => true
  | .dead _ => true
  | _ => false

theorem polite_after (op : MmOp) (ops : List MmOp) (h : Polite (op :: ops)) (hop : ∀ n, op ≠ .pause n) : After ops := by
  cases op with
  | pause n => exact absurd rfl (hop n)
  | read a =>
    cases ops with
    | nil => exact .inl rfl
    | cons o r =>
      cases o with
      | pause n =>
        cases n with
        | zero => exact h.elim
        | succ n => exact .inr ⟨n, r, rfl, h⟩
      | read a => exact h.elim
      | write a v => exact h.elim
  | write a v =>
    cases ops with
    | nil => exact .inl rfl
    | cons o r =>
      cases o with
      | pause n =>
        cases n with
        | zero => exact h.elim
        | succ n => exact .inr ⟨n, r, rfl, h⟩
      | read a => exact h.elim
      | write a v => exact h.elim

theorem after_polite (ops : List MmOp) (h : After ops) : Polite ops := by
  rcases h with rfl | ⟨n, r, rfl, h⟩
  · trivial
  · exact h

theorem after_resting (ops : List MmOp) (h : After ops) : resting (.idle ops) = true := by
  rcases h with rfl | ⟨n, r, rfl, h⟩ <;> rfl

structure Duo0 (g : MmSys) : Prop where
  two : g.tasks.length ≤ 2
  polite : ∀ (u : Nat) x, g.tasks[u]? = some x → politeSt x
  rest : ∀ (u v : Nat) x y, g.tasks[u]? = some x → g.tasks[v]? = some y → u ≠ v → isWoken y = true → resting x = true

structure Duo (g : MmSys) : Prop extends Duo0 g where
  busy : g.out.busy = true → ∃ (u : Nat) (x : TaskSt), g.tasks[u]? = some x ∧ (holds x = true ∨ isDead x = true)

theorem duo0_set (g g' : MmSys) (t : Nat) (x y : TaskSt) (h : Duo0 g) (hx : g.tasks[t]? = some x) (ht : g'.tasks = g.tasks.set t y) (hp : politeSt y)
    (hw : isWoken y = false) (hr : resting x = true → resting y = true) : Duo0 g' := by
  refine ⟨by rw [ht]; simpa using h.two, ?_, ?_⟩
  · intro u z hz
    rw [ht] at hz
    by_cases hu : u = t
    · subst hu
      rw [getElem?_set_at _ _ _ _ hx] at hz
      cases hz
      exact hp
    · rw [List.getElem?_set_ne (fun e => hu e.symm)] at hz
      exact h.polite u z hz
  · intro u v z w hz hwv huv hwo
    rw [ht] at hz hwv
    by_cases hv : v = t
    · subst hv
      rw [getElem?_set_at _ _ _ _ hx] at hwv
      cases hwv
      rw [hw] at hwo; cases hwo
    · rw [List.getElem?_set_ne (fun e => hv e.symm)] at hwv
      by_cases hu : u = t
      · subst hu
        rw [getElem?_set_at _ _ _ _ hx] at hz
        cases hz
        exact hr (h.rest u v x w hx hwv huv hwo)
      · rw [List.getElem?_set_ne (fun e => hu e.symm)] at hz
        exact h.rest u v z w hz hwv huv hwo

theorem busy_at (g : MmSys) (t : Nat) (x y : TaskSt) (l : List TaskSt) (hx : l[t]? = some x) (ht : g.tasks = l.set t y) (h : holds y = true ∨ isDead y = true) :
    g.out.busy = true → ∃ (u : Nat) (x : TaskSt), g.tasks[u]? = some x ∧ (holds x = true ∨ isDead x = true) :=
  fun _ => ⟨t, y, by rw [ht]; exact getElem?_set_at _ _ _ _ hx, h⟩

theorem busy_other (g g' : MmSys) (t : Nat) (x y : TaskSt) (hx : g.tasks[t]? = some x) (ht : g'.tasks = g.tasks.set t y) (ho : g'.out = g.out)
    (hn : ¬ (holds x = true ∨ isDead x = true))
    (h : g.out.busy = true → ∃ (u : Nat) (x : TaskSt), g.tasks[u]? = some x ∧ (holds x = true ∨ isDead x = true)) :
    g'.out.busy = true → ∃ (u : Nat) (x : TaskSt), g'.tasks[u]? = some x ∧ (holds x = true ∨ isDead x = true) := by
  intro hb
  rw [ho] at hb
  obtain ⟨u, z, hz, hq⟩ := h hb
  by_cases hu : u = t
  · subst hu
    rw [hx] at hz
    cases hz
    exact absurd hq hn
  · exact ⟨u, z, by rw [ht, List.getElem?_set_ne (fun e => hu e.symm)]; exact hz, hq⟩

theorem resume_duo (g : MmSys) (t : Nat) (x : TaskSt) (p : Prog MmIn MmOut (Option LogicArray)) (ops : List MmOp) (h : Duo0 g)
    (hx : g.tasks[t]? = some x) (hr : resting x = false) (ha : After ops) : Duo (g.resume t p ops) := by
  have hr' : ∀ y, resting x = true → resting y = true := fun y h => by rw [hr] at h; cases h
  unfold MmSys.resume
  rcases p.exec g.phase g.prev g.cur g.out with ⟨o, stop⟩
  cases stop with
  | ret a =>
    refine ⟨⟨by simpa using h.two, ?_, ?_⟩, fun hb => by cases hb⟩
    · intro u z hz
      by_cases hu : u = t
      · subst hu
        rw [getElem?_set_at _ _ _ _ (getElem?_map_at _ _ _ _ hx)] at hz
        cases hz
        exact after_polite _ ha
      · rw [List.getElem?_set_ne (fun e => hu e.symm)] at hz
        obtain ⟨z', hz', rfl⟩ := getElem?_map_of _ _ _ _ hz
        have := h.polite u z' hz'
        cases z' <;> exact this
    · intro u v z w hz hwv huv hwo
      have hut : u = t ∨ v = t := by
        have hl := h.two
        have h1 := (List.getElem?_eq_some_iff.1 hx).1
        have h2 := (List.getElem?_eq_some_iff.1 hz).1
        have h3 := (List.getElem?_eq_some_iff.1 hwv).1
        simp only [List.length_set, List.length_map] at h2 h3
        omega
      rcases hut with rfl | rfl
      · rw [getElem?_set_at _ _ _ _ (getElem?_map_at _ _ _ _ hx)] at hz
        cases hz
        exact after_resting _ ha
      · rw [getElem?_set_at _ _ _ _ (getElem?_map_at _ _ _ _ hx)] at hwv
        cases hwv
        cases hwo
  | raise e => exact ⟨duo0_set g _ t x _ h hx rfl trivial rfl (hr' _), busy_at _ t x _ g.tasks hx rfl (.inr rfl)⟩
  | edge k => exact ⟨duo0_set g _ t x _ h hx rfl ha rfl (hr' _), busy_at _ t x _ g.tasks hx rfl (.inl rfl)⟩
  | ro test k => exact ⟨duo0_set g _ t x _ h hx rfl ha rfl (hr' _), busy_at _ t x _ g.tasks hx rfl (.inl rfl)⟩
  | next k => exact ⟨duo0_set g _ t x _ h hx rfl ha rfl (hr' _), busy_at _ t x _ g.tasks hx rfl (.inl rfl)⟩

theorem take_duo (c : MmCfg) (g : MmSys) (t : Nat) (x : TaskSt) (op : MmOp) (ops : List MmOp) (h : Duo0 g)
    (hx : g.tasks[t]? = some x) (hr : resting x = false) (ha : After ops) : Duo (g.take c t op ops) :=
  resume_duo _ t x _ ops ⟨h.two, h.polite, h.rest⟩ hx hr ha

theorem map_duo (g g' : MmSys) (f : TaskSt → TaskSt) (h : Duo g) (ht : g'.tasks = g.tasks.map f) (ho : g'.out = g.out)
    (hp : ∀ x, politeSt x → politeSt (f x)) (hw : ∀ x ∈ g.tasks, isWoken (f x) = false)
    (hb : ∀ x, (holds x = true ∨ isDead x = true) → (holds (f x) = true ∨ isDead (f x) = true)) : Duo g' := by
  refine ⟨⟨by rw [ht]; simpa using h.two, ?_, ?_⟩, ?_⟩
  · intro u z hz
    rw [ht] at hz
    obtain ⟨z', hz', rfl⟩ := getElem?_map_of _ _ _ _ hz
    exact hp _ (h.polite u z' hz')
  · intro u v z w hz hwv huv hwo
    rw [ht] at hwv
    obtain ⟨z', hz', rfl⟩ := getElem?_map_of _ _ _ _ hwv
    rw [hw z' (List.mem_of_getElem? hz')] at hwo
    cases hwo
  · intro hbusy
    rw [ho] at hbusy
    obtain ⟨u, z, hz, hq⟩ := h.busy hbusy
    exact ⟨u, f z, by rw [ht]; exact getElem?_map_at _ _ _ _ hz, hb _ hq⟩

theorem run_duo (c : MmCfg) (g g' : MmSys) (t : Nat) (h : Duo g) (hev : g.out.busy = true → g.eventSet = false) (hs : g.run c t = some g') : Duo g' := by
  unfold MmSys.run at hs
  split at hs
  · rename_i ops hx
    cases hs
    have hp := h.polite _ _ hx
    exact ⟨duo0_set g _ t _ _ h.toDuo0 hx rfl hp rfl (by intro hr; cases hr), busy_other g _ t _ _ hx rfl rfl (by simp [holds, isDead]) h.busy⟩
  · rename_i n ops hx
    cases hs
    have hp := h.polite _ _ hx
    exact ⟨duo0_set g _ t _ _ h.toDuo0 hx rfl hp rfl (fun _ => rfl), busy_other g _ t _ _ hx rfl rfl (by simp [holds, isDead]) h.busy⟩
  · rename_i op ops h1 h2 hx
    have hop : ∀ n, op ≠ .pause n := by
      intro n hn
      subst hn
      cases n with
      | zero => exact h1 rfl
      | succ n => exact h2 n rfl
    have hr : resting (.idle (op :: ops)) = false := by
      cases op with
      | pause n => exact absurd rfl (hop n)
      | _ => rfl
    have hr' : ∀ y, resting (.idle (op :: ops)) = true → resting y = true := fun y h => by rw [hr] at h; cases h
    have ha := polite_after op ops (h.polite _ _ hx) hop
    split at hs
    · cases hs
      exact ⟨duo0_set g _ t _ _ h.toDuo0 hx rfl trivial rfl (hr' _), busy_at _ t _ _ g.tasks hx rfl (.inr rfl)⟩
    · split at hs
      · cases hs
        exact ⟨duo0_set g _ t _ _ h.toDuo0 hx rfl ha rfl (hr' _), busy_other g _ t _ _ hx rfl rfl (by simp [holds, isDead]) h.busy⟩
      · rename_i hc
        split at hs
        · rename_i hb
          rw [hb, hev hb] at hc
          exact absurd rfl hc
        · cases hs
          exact take_duo c g t _ op ops h.toDuo0 hx hr ha
  · rename_i op ops hx
    cases hs
    exact take_duo c g t _ op ops h.toDuo0 hx rfl (h.polite _ _ hx)
  · rename_i p ops hx
    cases hs
    exact resume_duo g t _ p ops h.toDuo0 hx rfl (h.polite _ _ hx)
  · cases hs

theorem not_woken (x : TaskSt) (h : x.runnable = false) : isWoken x = false := by
  cases x <;> first | rfl | cases h

theorem step_duo (c : MmCfg) (g g' : MmSys) (e : TEv) (h : Duo g) (hev : g.out.busy = true → g.eventSet = false) (hs : g.step c e = some g') : Duo g' := by
  have hmem : ∀ x ∈ g.tasks, g.tasks.any TaskSt.runnable = false → isWoken x = false := by
    intro x hx hn
    obtain ⟨u, hu⟩ := List.getElem?_of_mem hx
    exact not_woken x (not_any hn u x hu)
  cases e with
  | run t => exact run_duo c g g' t h hev hs
  | ro =>
    simp only [MmSys.step] at hs
    split at hs
    · cases hs
    · rename_i hc
      simp only [Bool.not_eq_true, Bool.or_eq_false_iff] at hc
      cases hs
      refine map_duo g _ (TaskSt.ro g.cur) h rfl rfl ?_ ?_ ?_
      · intro x hx
        cases x with
        | atRO test p ops =>
          simp only [TaskSt.ro]
          split
          · trivial
          · exact hx
          · exact hx
        | _ => exact hx
      · intro x hx
        have := hmem x hx hc.1
        cases x with
        | atRO test p ops => simp only [TaskSt.ro]; split <;> rfl
        | _ => exact this
      · intro x hx
        cases x with
        | atRO test p ops =>
          simp only [TaskSt.ro]
          split
          · exact .inr rfl
          · exact .inl rfl
          · exact .inl rfl
        | _ => exact hx
  | next =>
    simp only [MmSys.step] at hs
    split at hs
    · cases hs
    · rename_i hc
      simp only [Bool.not_eq_true, Bool.or_eq_false_iff] at hc
      cases hs
      refine map_duo g _ TaskSt.next h rfl rfl ?_ ?_ ?_
      · intro x hx; cases x <;> exact hx
      · intro x hx
        have := hmem x hx hc.1
        cases x <;> first | rfl | exact this
      · intro x hx; cases x <;> exact hx
  | edge i =>
    simp only [MmSys.step] at hs
    split at hs
    · cases hs
    · rename_i hc
      simp only [Bool.not_eq_true, Bool.or_eq_false_iff] at hc
      cases hs
      refine map_duo g _ TaskSt.edge h rfl rfl ?_ ?_ ?_
      · intro x hx
        cases x with
        | paused n ops => cases n <;> exact hx
        | _ => exact hx
      · intro x hx
        have := hmem x hx hc.1.1
        cases x with
        | paused n ops => cases n <;> rfl
        | atEdge p ops => rfl
        | _ => exact this
      · intro x hx
        cases x with
        | paused n ops => simp [holds, isDead] at hx
        | _ => exact hx

theorem inv_event (c : MmCfg) (s0 : List MmIn → Sim MmIn MmOut) (I : Nat) (g : MmSys) (h : Inv c s0 I g) : g.out.busy = true → g.eventSet = false := by
  intro hb
  cases h with
  | free seq ph huse hord hrd hbusy htasks hwoken hI => rw [hbusy] at hb; cases hb
  | held t op done x seq tr0 tr1 s1 huse hcall htr hord hdone hrd hop hbusy' hev hx hholds hfree hothers hI => exact hev
  | dead t op done seq tr0 tr1 tl s1 e huse hcall htr htl hord hdone hop hbusy' hev htasks hI => exact hev

theorem duo_calm (c : MmCfg) (s0 : List MmIn → Sim MmIn MmOut) (I : Nat) (g : MmSys) (e : TEv) (h : Duo g) (hi : Inv c s0 I g) : CalmStep g e := by
  constructor
  · intro t x y _ hx hcall hy
    obtain ⟨v, hv⟩ := List.getElem?_of_mem hy
    cases hw : isWoken y with
    | false => rfl
    | true =>
      by_cases htv : t = v
      · subst htv
        rw [hx] at hv
        cases hv
        cases x <;> first | cases hcall | cases hw
      · have := h.rest t v x y hx hv htv hw
        cases x with
        | idle ops =>
          cases ops with
          | nil => cases hcall
          | cons op ops => cases op <;> first | cases this | cases hcall
        | _ => cases hcall
  · intro t u x y hx hy hwx hwy
    by_cases htu : t = u
    · exact htu
    · exfalso
      have hbusy : g.out.busy = true := by
        cases hi with
        | free seq ph huse hord hrd hbusy htasks hwoken hI => rw [(htasks t x hx).2.1] at hwx; cases hwx
        | held t op done x seq tr0 tr1 s1 huse hcall htr hord hdone hrd hop hbusy' hev hx hholds hfree hothers hI => exact hbusy'
        | dead t op done seq tr0 tr1 tl s1 e huse hcall htr htl hord hdone hop hbusy' hev htasks hI => exact hbusy'
      obtain ⟨v, z, hz, hq⟩ := h.busy hbusy
      have hvt : v ≠ t := by
        rintro rfl
        rw [hx] at hz
        cases hz
        cases x <;> first | (rcases hq with hq | hq <;> cases hq; done) | cases hwx
      have hvu : v ≠ u := by
        rintro rfl
        rw [hy] at hz
        cases hz
        cases y <;> first | (rcases hq with hq | hq <;> cases hq; done) | cases hwy
      have h1 := (List.getElem?_eq_some_iff.1 hx).1
      have h2 := (List.getElem?_eq_some_iff.1 hy).1
      have h3 := (List.getElem?_eq_some_iff.1 hz).1
      have h4 := h.two
      omega

theorem duo_all_calm (c : MmCfg) (s0 : List MmIn → Sim MmIn MmOut) (progs : List (List MmOp)) (hops : ∀ p ∈ progs, ∀ op ∈ p, mmRefuses c op = none)
    (evs : List TEv) : ∀ I g, Inv c s0 I g → MadeBy progs g → Duo g → Calm c g evs := by
  induction evs with
  | nil => intro I g _ _ _; trivial
  | cons e es ih =>
    intro I g h1 h2 h3
    refine ⟨duo_calm c s0 I g e h3 h1, fun g1 hg => ?_⟩
    have hprog : ∀ (u : Nat) x, g.tasks[u]? = some x → ∃ p, progs[u]? = some p := by
      intro u x hx
      have hlt : u < progs.length := by rw [← h2.length]; exact (List.getElem?_eq_some_iff.1 hx).1
      exact ⟨_, List.getElem?_eq_getElem hlt⟩
    refine ih (I + idleAt g e) g1 (step_inv c s0 I g g1 e h1 hg (duo_calm c s0 I g e h3 h1) ?_ ?_) (step_tracks c progs g g1 e h2 hg)
      (step_duo c g g1 e h3 (inv_event c s0 I g h1) hg)
    · intro u x hx op hop
      obtain ⟨p, hp⟩ := hprog u x hx
      exact hops p (List.mem_of_getElem? hp) op ((h2.task u p x hp hx).2.2.1 op hop)
    · intro u op ops hx
      obtain ⟨p, hp⟩ := hprog u _ hx
      exact (h2.task u p _ hp hx).2.2.2

theorem start_duo (out : MmOut) (cur : MmIn) (p q : List MmOp) (hb : out.busy = false) (hp : Polite p) (hq : Polite q) :
    Duo (MmSys.start out cur [p, q]) := by
  refine ⟨⟨Nat.le_refl _, ?_, ?_⟩, fun h => by rw [show (MmSys.start out cur [p, q]).out = out from rfl, hb] at h; cases h⟩
  · intro u x hx
    match u, hx with
    | 0, hx => cases hx; exact hp
    | 1, hx => cases hx; exact hq
    | n + 2, hx => cases hx
  · intro u v x y hx hy _ hw
    match v, hy with
    | 0, hy => cases hy; cases hw
    | 1, hy => cases hy; cases hw
    | n + 2, hy => cases hy

end CocotbBus
