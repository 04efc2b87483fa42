import Verif.Spec.MmTasks
import Verif.Proof.MmTasksProg

/-! # Several tasks that use one Avalon-MM master -/

namespace CocotbBus
open Coro Spec

/-- has the lock and is in a call -/
def holds : TaskSt → Bool
  | .ready _ _ => true
  | .atEdge _ _ => true
  | .atRO _ _ _ => true
  | .atNext _ _ => true
  | _ => false

/-- what the task has still to do inside the lock -/
def remM : TaskSt → M MmIn MmOut (Option LogicArray)
  | .ready p _ => p.toM
  | .atEdge p _ => awaitEdge >>= fun _ => p.toM
  | .atRO test p _ => roM test >>= fun _ => p.toM
  | .atNext p _ => nextStep >>= fun _ => p.toM
  | _ => hang

def nowS (g : MmSys) (F : List MmIn) : Sim MmIn MmOut := ⟨g.phase, g.out, g.prev, g.cur, F⟩

/-- the tasks that get the values read -/
def readers (l : List (Nat × MmOp)) : List Nat :=
  l.filterMap fun p => match p.2 with
    | .read _ => some p.1
    | _ => none

def prepend {I O α : Type} (l : List (O × I)) (r : Res I O α) : Res I O α := (l ++ r.1, r.2)

theorem norm_prepend {I O α : Type} (l : List (O × I)) (r : Res I O α) : norm (prepend l r) = prepend l (norm r) := rfl

theorem finish_silent (x y : M MmIn MmOut (Option LogicArray)) (s s' : Sim MmIn MmOut) (h : x s = y s') : finish x s = finish y s' := by
  unfold finish
  rw [bind_run, bind_run, h]

/-- the program does not touch the lock -/
def Prog.lockFree : Prog MmIn MmOut (Option LogicArray) → Prop
  | .ret _ => True
  | .raise _ => True
  | .write f k => (∀ o, (f o).busy = o.busy) ∧ k.lockFree
  | .inp k => ∀ i, (k i).lockFree
  | .edge k => k.lockFree
  | .untilRO _ k => k.lockFree
  | .next k => k.lockFree

def Stop.lockFree : Stop → Prop
  | .ret _ => True
  | .raise _ => True
  | .edge k => k.lockFree
  | .ro _ k => k.lockFree
  | .next k => k.lockFree

def lockFreeSt : TaskSt → Prop
  | .ready p _ => p.lockFree
  | .atEdge p _ => p.lockFree
  | .atRO _ p _ => p.lockFree
  | .atNext p _ => p.lockFree
  | _ => True

theorem exec_lockFree (ph : Phase) (prev cur : MmIn) (p : Prog MmIn MmOut (Option LogicArray)) : ∀ o, p.lockFree →
    (p.exec ph prev cur o).1.busy = o.busy ∧ (p.exec ph prev cur o).2.lockFree := by
  induction p with
  | ret a => intro o _; exact ⟨rfl, trivial⟩
  | raise e => intro o _; exact ⟨rfl, trivial⟩
  | write f k ih =>
    intro o h
    rw [Prog.exec]
    split
    · exact ⟨rfl, trivial⟩
    · obtain ⟨h1, h2⟩ := ih (f o) h.2
      exact ⟨h1.trans (h.1 o), h2⟩
  | inp k ih => intro o h; exact ih _ o (h _)
  | edge k _ => intro o h; exact ⟨rfl, h⟩
  | untilRO test k _ =>
    intro o h
    rw [Prog.exec]
    split
    · exact ⟨rfl, trivial⟩
    · exact ⟨rfl, h⟩
  | next k _ => intro o h; exact ⟨rfl, h⟩

theorem writeInt_lockFree (w n : Nat) (f : LogicArray → MmOut → MmOut) (k : Prog MmIn MmOut (Option LogicArray)) (hf : ∀ v o, (f v o).busy = o.busy)
    (hk : k.lockFree) : (Prog.writeInt w n f k).lockFree := by
  unfold Prog.writeInt
  split
  · exact ⟨hf _, hk⟩
  · trivial

theorem mmProg_lockFree (c : MmCfg) (op : MmOp) : (mmProg c op).lockFree := by
  have hw : ∀ k : Prog MmIn MmOut (Option LogicArray), k.lockFree → (mmWaitP c k).lockFree := by
    intro k hk
    unfold mmWaitP
    split
    · exact hk
    · exact hk
  cases op with
  | pause n => trivial
  | read a =>
    refine writeInt_lockFree _ _ _ _ (fun _ _ => rfl) ⟨fun _ => rfl, fun _ => rfl, hw _ ?_⟩
    exact ⟨fun _ => rfl, fun _ => rfl, fun _ => trivial⟩
  | write a v =>
    refine writeInt_lockFree _ _ _ _ (fun _ _ => rfl) (writeInt_lockFree _ _ _ _ (fun _ _ => rfl) ⟨fun _ => rfl, fun _ => rfl, hw _ ?_⟩)
    exact ⟨fun _ => rfl, fun _ => rfl, fun _ => rfl, trivial⟩

/-- clock edges spent in pauses -/
def idleEdges : List MmOp → Nat
  | [] => 0
  | .pause n :: r => n + idleEdges r
  | _ :: r => idleEdges r

theorem idleEdges_append (a b : List MmOp) : idleEdges (a ++ b) = idleEdges a + idleEdges b := by
  induction a with
  | nil => simp [idleEdges]
  | cons op a ih => cases op <;> simp [idleEdges, ih, Nat.add_assoc]

/-- the invariant: the calls so far are the steps `seq` of one task -/
inductive Inv (c : MmCfg) (s0 : List MmIn → Sim MmIn MmOut) (I : Nat) (g : MmSys) : Prop
  | free (seq : List MmOp) (ph : Phase)
      (huse : ∀ F, mmUse c seq (s0 (g.ins ++ F)) = (g.reads.map Prod.snd, g.trace, .ok () ⟨ph, g.out, g.prev, g.cur, F⟩))
      (hord : g.order.map Prod.snd = callsOf seq)
      (hrd : g.reads.map Prod.fst = readers g.order)
      (hbusy : g.out.busy = false)
      (htasks : ∀ (u : Nat) x, g.tasks[u]? = some x → holds x = false ∧ isWaiting x = false ∧ isDead x = false)
      (hwoken : ∀ (u v : Nat) x y, g.tasks[u]? = some x → g.tasks[v]? = some y → isWoken x = true → isWoken y = true → u = v) (hI : idleEdges seq = I) : Inv c s0 I g
  | held (t : Nat) (op : MmOp) (done : List (Nat × MmOp)) (x : TaskSt) (seq : List MmOp) (tr0 tr1 : List (MmOut × MmIn))
      (s1 : List MmIn → Sim MmIn MmOut)
      (huse : ∀ F, mmUse c seq (s0 (g.ins ++ F)) = (g.reads.map Prod.snd, tr0, .ok () (s1 F)))
      (hcall : ∀ F, norm (callP c op (s1 F)) = norm (prepend tr1 (finish (remM x) (nowS g F))))
      (htr : g.trace = tr0 ++ tr1)
      (hord : g.order = done ++ [(t, op)])
      (hdone : done.map Prod.snd = callsOf seq)
      (hrd : g.reads.map Prod.fst = readers done)
      (hop : ∀ n, op ≠ .pause n)
      (hbusy : g.out.busy = true)
      (hev : g.eventSet = false)
      (hx : g.tasks[t]? = some x)
      (hholds : holds x = true)
      (hfree : lockFreeSt x)
      (hothers : ∀ (u : Nat) y, u ≠ t → g.tasks[u]? = some y → holds y = false ∧ isWoken y = false ∧ isDead y = false) (hI : idleEdges seq = I) : Inv c s0 I g
  | dead (t : Nat) (op : MmOp) (done : List (Nat × MmOp)) (seq : List MmOp) (tr0 tr1 tl : List (MmOut × MmIn))
      (s1 : List MmIn → Sim MmIn MmOut) (e : PyErr)
      (huse : ∀ F, mmUse c seq (s0 (g.ins ++ F)) = (g.reads.map Prod.snd, tr0, .ok () (s1 F)))
      (hcall : ∀ F, ∃ s', norm (callP c op (s1 F)) = (tr1, .err e s') ∧ s'.out = g.out)
      (htr : g.trace = tr0 ++ tr1 ++ tl)
      (htl : ∀ p ∈ tl, p.1 = g.out)
      (hord : g.order = done ++ [(t, op)])
      (hdone : done.map Prod.snd = callsOf seq)
      (hop : ∀ n, op ≠ .pause n)
      (hbusy : g.out.busy = true)
      (hev : g.eventSet = false)
      (htasks : ∀ (u : Nat) x, g.tasks[u]? = some x → holds x = false ∧ isWoken x = false) (hI : idleEdges seq = I) : Inv c s0 I g

theorem mmUse_append (c : MmCfg) (a b : List MmOp) : ∀ (s s' : Sim MmIn MmOut) (rd : List LogicArray) (tr : List (MmOut × MmIn)),
    mmUse c a s = (rd, tr, .ok () s') →
    mmUse c (a ++ b) s = (rd ++ (mmUse c b s').1, tr ++ (mmUse c b s').2.1, (mmUse c b s').2.2) := by
  induction a with
  | nil =>
    intro s s' rd tr h
    simp only [mmUse, Prod.mk.injEq, End.ok.injEq] at h
    obtain ⟨rfl, rfl, -, rfl⟩ := h
    rfl
  | cons op a ih =>
    intro s s' rd tr h
    rw [List.cons_append, mmUse]
    rw [mmUse] at h
    generalize hm : mmStep c op s = r at h
    obtain ⟨t, e⟩ := r
    cases e with
    | ok d s1 =>
      simp only [Prod.mk.injEq] at h
      obtain ⟨h1, h2, h3⟩ := h
      have h4 : mmUse c a s1 = ((mmUse c a s1).1, (mmUse c a s1).2.1, .ok () s') := by rw [← h3]
      simp only [ih _ _ _ _ h4, ← h1, ← h2, List.append_assoc]
    | err e s1 => simp at h
    | blocked s1 => simp at h

theorem mmUse_one (c : MmCfg) (op : MmOp) (s : Sim MmIn MmOut) (t : List (MmOut × MmIn)) (d : Option LogicArray) (s' : Sim MmIn MmOut)
    (h : mmStep c op s = (t, .ok d s')) : mmUse c [op] s = (d.toList, t, .ok () s') := by
  rw [mmUse, h]
  simp [mmUse]

/-- reads return something, writes do not -/
theorem mmStep_value (c : MmCfg) (op : MmOp) (s : Sim MmIn MmOut) (t : List (MmOut × MmIn)) (d : Option LogicArray) (s' : Sim MmIn MmOut)
    (h : mmStep c op s = (t, .ok d s')) (u : Nat) : (d.toList.map fun v => (u, v)).map Prod.fst = readers [(u, op)] := by
  cases op with
  | pause n =>
    simp only [mmStep] at h
    obtain ⟨_, _, _, h1⟩ := ok_of_bind (congrArg Prod.snd h)
    simp only [pure_run, End.ok.injEq] at h1
    obtain ⟨rfl, -⟩ := h1
    rfl
  | read a =>
    simp only [mmStep] at h
    obtain ⟨_, _, _, h1⟩ := ok_of_bind (congrArg Prod.snd h)
    simp only [pure_run, End.ok.injEq] at h1
    obtain ⟨rfl, -⟩ := h1
    rfl
  | write a v =>
    simp only [mmStep] at h
    obtain ⟨_, _, _, h1⟩ := ok_of_bind (congrArg Prod.snd h)
    simp only [pure_run, End.ok.injEq] at h1
    obtain ⟨rfl, -⟩ := h1
    rfl

theorem holds_not_waiting {x : TaskSt} (h : holds x = true) : isWaiting x = false ∧ isWoken x = false ∧ isDead x = false := by
  cases x <;> simp_all [holds, isWaiting, isWoken, isDead]

theorem getElem?_set_of {α : Type} (l : List α) (t u : Nat) (a x : α) (h : (l.set t a)[u]? = some x) : (u = t ∧ x = a) ∨ (u ≠ t ∧ l[u]? = some x) := by
  rw [List.getElem?_set] at h
  split at h
  · rename_i hu
    split at h
    · exact .inl ⟨hu.symm, by simpa using h.symm⟩
    · cases h
  · rename_i hu
    exact .inr ⟨fun e => hu e.symm, h⟩

theorem getElem?_set_at {α : Type} (l : List α) (t : Nat) (a x : α) (h : l[t]? = some x) : (l.set t a)[t]? = some a := by
  rw [List.getElem?_set]
  simp [(List.getElem?_eq_some_iff.1 h).1]

theorem wake_spec (x : TaskSt) : holds x.wake = holds x ∧ isWaiting x.wake = false ∧ isDead x.wake = isDead x ∧
    (isWoken x.wake = true → isWoken x = true ∨ isWaiting x = true) := by
  cases x <;> simp [TaskSt.wake, holds, isWaiting, isDead, isWoken]

theorem busy_of_norm_ok {α : Type} {t t' : List (MmOut × MmIn)} {e : End MmIn MmOut α} {a : α} {s : Sim MmIn MmOut}
    (h : norm (t, e) = norm (t', .ok a s)) : t = t' ∧ e = .ok a s := by
  simp only [norm, normEnd, Prod.mk.injEq] at h
  refine ⟨h.1, ?_⟩
  cases e <;> simp_all

/-- the holder of the lock runs up to its next wait -/
theorem resume_inv (c : MmCfg) (s0 : List MmIn → Sim MmIn MmOut) (I : Nat) (g : MmSys) (t : Nat) (p : Prog MmIn MmOut (Option LogicArray)) (ops : List MmOp)
    (op : MmOp) (done : List (Nat × MmOp)) (seq : List MmOp) (tr0 tr1 : List (MmOut × MmIn))
    (s1 : List MmIn → Sim MmIn MmOut)
    (huse : ∀ F, mmUse c seq (s0 (g.ins ++ F)) = (g.reads.map Prod.snd, tr0, .ok () (s1 F)))
    (hcall : ∀ F, norm (callP c op (s1 F)) = norm (prepend tr1 (finish p.toM (nowS g F))))
    (htr : g.trace = tr0 ++ tr1)
    (hord : g.order = done ++ [(t, op)])
    (hdone : done.map Prod.snd = callsOf seq)
    (hrd : g.reads.map Prod.fst = readers done)
    (hop : ∀ n, op ≠ .pause n)
    (hbusy : g.out.busy = true)
    (hlf : p.lockFree)
    (hev : g.eventSet = false)
    (x : TaskSt) (hx : g.tasks[t]? = some x)
    (hothers : ∀ (u : Nat) y, u ≠ t → g.tasks[u]? = some y → holds y = false ∧ isWoken y = false ∧ isDead y = false)
    (hwait : ∀ (u v : Nat) x y, g.tasks[u]? = some x → g.tasks[v]? = some y → isWaiting x = true → isWaiting y = true → u = v)
    (hI : idleEdges seq = I) :
    Inv c s0 I (g.resume t p ops) := by
  have hex : ∀ F, p.toM (nowS g F) = (p.exec g.phase g.prev g.cur g.out).2.toM ⟨g.phase, (p.exec g.phase g.prev g.cur g.out).1, g.prev, g.cur, F⟩ :=
    fun F => exec_toM p (nowS g F)
  obtain ⟨hlf1, hlf2⟩ := exec_lockFree g.phase g.prev g.cur p g.out hlf
  rw [hbusy] at hlf1
  unfold MmSys.resume
  generalize p.exec g.phase g.prev g.cur g.out = r at hex hlf1 hlf2
  obtain ⟨o, st⟩ := r
  have hset : ∀ (a : TaskSt) (u : Nat) y, isDead a = false → u ≠ t → (g.tasks.set t a)[u]? = some y → holds y = false ∧ isWoken y = false ∧ isDead y = false := by
    intro a u y _ hu hy
    rcases getElem?_set_of _ _ _ _ _ hy with ⟨rfl, -⟩ | ⟨-, hy⟩
    · exact absurd rfl hu
    · exact hothers u y hu hy
  cases st with
  | ret a =>
    simp only
    have hfin : ∀ F, finish p.toM (nowS g F) = ([], .ok a ⟨g.phase, { o with busy := false }, g.prev, g.cur, F⟩) := by
      intro F
      unfold finish
      rw [bind_run, hex F]
      rfl
    have hstep : ∀ F, mmStep c op (s1 F) = (tr1, .ok a ⟨g.phase, { o with busy := false }, g.prev, g.cur, F⟩) := by
      intro F
      have h1 := hcall F
      rw [hfin F, ← mmStep_call c op hop] at h1
      generalize mmStep c op (s1 F) = m at h1
      obtain ⟨t', e'⟩ := m
      simp only [prepend, List.append_nil] at h1
      obtain ⟨rfl, rfl⟩ := busy_of_norm_ok h1
      rfl
    refine Inv.free (seq ++ [op]) g.phase ?_ ?_ ?_ rfl ?_ ?_ ?_
    · intro F
      simp only
      rw [mmUse_append c seq [op] _ _ _ _ (huse F), mmUse_one c op _ _ _ _ (hstep F)]
      simp only [List.map_append, List.map_map, htr]
      congr 2
      cases a <;> rfl
    · simp only [hord, List.map_append, hdone, List.map_cons, List.map_nil]
      unfold callsOf
      rw [List.filter_append]
      congr 1
      cases op with
      | pause n => exact absurd rfl (hop n)
      | read _ => rfl
      | write _ _ => rfl
    · simp only [hord, List.map_append, hrd]
      rw [mmStep_value c op _ _ _ _ (hstep []) t]
      simp [readers, List.filterMap_append]
    · intro u y hy
      simp only at hy
      rcases getElem?_set_of _ _ _ _ _ hy with ⟨rfl, rfl⟩ | ⟨hu, hy⟩
      · exact ⟨rfl, rfl, rfl⟩
      · rw [List.getElem?_map] at hy
        cases hz : g.tasks[u]? with
        | none => rw [hz] at hy; cases hy
        | some z =>
          rw [hz] at hy
          simp only [Option.map_some, Option.some.injEq] at hy
          subst hy
          obtain ⟨w1, w2, w3, -⟩ := wake_spec z
          obtain ⟨q1, q2, q3⟩ := hothers u z hu hz
          exact ⟨w1.trans q1, w2, w3.trans q3⟩
    · intro u v y z hy hz hwy hwz
      simp only at hy hz
      have key : ∀ (u : Nat) y, ((g.tasks.map TaskSt.wake).set t (.idle ops))[u]? = some y → isWoken y = true →
          ∃ y', g.tasks[u]? = some y' ∧ isWaiting y' = true := by
        intro u y hy hw
        rcases getElem?_set_of _ _ _ _ _ hy with ⟨rfl, rfl⟩ | ⟨hu, hy⟩
        · cases hw
        · rw [List.getElem?_map] at hy
          cases hz : g.tasks[u]? with
          | none => rw [hz] at hy; cases hy
          | some z =>
            rw [hz] at hy
            simp only [Option.map_some, Option.some.injEq] at hy
            subst hy
            refine ⟨z, rfl, ?_⟩
            rcases (wake_spec z).2.2.2 hw with h | h
            · rw [(hothers u z hu hz).2.1] at h; cases h
            · exact h
      obtain ⟨y', hy1, hy2⟩ := key u y hy hwy
      obtain ⟨z', hz1, hz2⟩ := key v z hz hwz
      exact hwait u v y' z' hy1 hz1 hy2 hz2
    · rw [idleEdges_append, hI]
      cases op with
      | pause n => exact absurd rfl (hop n)
      | read _ => rfl
      | write _ _ => rfl
  | raise e =>
    simp only
    refine Inv.dead t op done seq tr0 tr1 [] s1 e huse ?_ (by rw [htr, List.append_nil]) (by simp) hord hdone hop hlf1 hev ?_ hI
    · intro F
      refine ⟨⟨.mid, o, g.prev, g.cur, F⟩, ?_, rfl⟩
      rw [hcall F]
      have : finish p.toM (nowS g F) = ([], .err e ⟨g.phase, o, g.prev, g.cur, F⟩) := by
        unfold finish
        rw [bind_run, hex F]
        rfl
      rw [this]
      simp [prepend, norm, normEnd]
    · intro u y hy
      simp only at hy
      rcases getElem?_set_of _ _ _ _ _ hy with ⟨rfl, rfl⟩ | ⟨hu, hy⟩
      · exact ⟨rfl, rfl⟩
      · exact ⟨(hothers u y hu hy).1, (hothers u y hu hy).2.1⟩
  | edge k =>
    exact Inv.held t op done (.atEdge k ops) seq tr0 tr1 s1 huse
      (fun F => by rw [hcall F, finish_silent p.toM (remM (.atEdge k ops)) _ _ (hex F)]; rfl)
      htr hord hdone hrd hop hlf1 hev (getElem?_set_at _ _ _ _ hx) rfl hlf2 (fun u y hu hy => hset (.atEdge k ops) u y rfl hu hy) hI
  | ro test k =>
    exact Inv.held t op done (.atRO test k ops) seq tr0 tr1 s1 huse
      (fun F => by rw [hcall F, finish_silent p.toM (remM (.atRO test k ops)) _ _ (hex F)]; rfl)
      htr hord hdone hrd hop hlf1 hev (getElem?_set_at _ _ _ _ hx) rfl hlf2 (fun u y hu hy => hset (.atRO test k ops) u y rfl hu hy) hI
  | next k =>
    exact Inv.held t op done (.atNext k ops) seq tr0 tr1 s1 huse
      (fun F => by rw [hcall F, finish_silent p.toM (remM (.atNext k ops)) _ _ (hex F)]; rfl)
      htr hord hdone hrd hop hlf1 hev (getElem?_set_at _ _ _ _ hx) rfl hlf2 (fun u y hu hy => hset (.atNext k ops) u y rfl hu hy) hI


/-- at a wait for the clock the phase does not matter -/
theorem edge_norm (k : M MmIn MmOut (Option LogicArray)) (ph ph' : Phase) (out : MmOut) (prev cur : MmIn) (F : List MmIn) :
    norm (finish (awaitEdge >>= fun _ => k) ⟨ph, out, prev, cur, F⟩) =
    norm (prepend [] (finish (awaitEdge >>= fun _ => k) ⟨ph', out, prev, cur, F⟩)) := by
  have h0 : ∀ r : Res MmIn MmOut (Option LogicArray), prepend [] r = r := fun _ => rfl
  rw [h0]
  refine norm_bind ?_ fun _ _ => rfl
  cases F with
  | nil => rw [bind_awaitEdge_nil _ _ rfl, bind_awaitEdge_nil _ _ rfl]; rfl
  | cons i r => rw [bind_awaitEdge_cons _ _ i r rfl, bind_awaitEdge_cons _ _ i r rfl]

/-- a task begins a call -/
theorem take_inv (c : MmCfg) (s0 : List MmIn → Sim MmIn MmOut) (I : Nat) (g : MmSys) (t : Nat) (op : MmOp) (ops : List MmOp)
    (seq : List MmOp) (ph : Phase)
    (huse : ∀ F, mmUse c seq (s0 (g.ins ++ F)) = (g.reads.map Prod.snd, g.trace, .ok () ⟨ph, g.out, g.prev, g.cur, F⟩))
    (hord : g.order.map Prod.snd = callsOf seq)
    (hrd : g.reads.map Prod.fst = readers g.order)
    (hbusy : g.out.busy = false)
    (hop : ∀ n, op ≠ .pause n) (hwill : mmRefuses c op = none)
    (x : TaskSt) (hx : g.tasks[t]? = some x)
    (hothers : ∀ (u : Nat) y, u ≠ t → g.tasks[u]? = some y → holds y = false ∧ isWoken y = false ∧ isDead y = false)
    (hI : idleEdges seq = I) :
    Inv c s0 I (g.take c t op ops) := by
  obtain ⟨k, hk⟩ : ∃ k, mmProg c op = .edge k := by
    cases op with
    | pause n => exact absurd rfl (hop n)
    | read a => exact ⟨_, rfl⟩
    | write a v => exact ⟨_, rfl⟩
  have hlf := mmProg_lockFree c op
  rw [hk] at hlf
  unfold MmSys.take
  rw [hk]
  refine Inv.held t op g.order (.atEdge k ops) seq g.trace [] (fun F => ⟨ph, g.out, g.prev, g.cur, F⟩) huse ?_ (List.append_nil _).symm rfl hord hrd hop rfl rfl
    (getElem?_set_at _ _ _ _ hx) rfl hlf ?_ hI
  · intro F
    unfold callP
    rw [hwill]
    simp only
    rw [mmAcquire_bind _ _ hbusy, hk]
    exact edge_norm k.toM _ _ _ _ _ _
  · intro u y hu hy
    rcases getElem?_set_of _ _ _ _ _ hy with ⟨rfl, -⟩ | ⟨-, hy⟩
    · exact absurd rfl hu
    · exact hothers u y hu hy

/-- a task that is not in a call does something that is not a call -/
theorem set_inv (c : MmCfg) (s0 : List MmIn → Sim MmIn MmOut) (I : Nat) (g : MmSys) (t : Nat) (x y : TaskSt) (hx : g.tasks[t]? = some x)
    (hx1 : holds x = false) (hy1 : holds y = false) (hy2 : isWoken y = false) (hy3 : isDead y = false) (hy4 : isWaiting y = true → g.out.busy = true)
    (h : Inv c s0 I g) : Inv c s0 I { g with tasks := g.tasks.set t y } := by
  cases h with
  | free seq ph huse hord hrd hbusy htasks hwoken hI =>
    refine .free seq ph huse hord hrd hbusy ?_ ?_ hI
    · intro u z hz
      rcases getElem?_set_of _ _ _ _ _ hz with ⟨rfl, rfl⟩ | ⟨-, hz⟩
      · refine ⟨hy1, ?_, hy3⟩
        cases hw : isWaiting z with
        | false => rfl
        | true => have := hy4 hw; rw [hbusy] at this; cases this
      · exact htasks u z hz
    · intro u v z w hz hw hz1 hw1
      rcases getElem?_set_of _ _ _ _ _ hz with ⟨rfl, rfl⟩ | ⟨-, hz⟩
      · rw [hy2] at hz1; cases hz1
      · rcases getElem?_set_of _ _ _ _ _ hw with ⟨rfl, rfl⟩ | ⟨-, hw⟩
        · rw [hy2] at hw1; cases hw1
        · exact hwoken u v z w hz hw hz1 hw1
  | held t' op done x' seq tr0 tr1 s1 huse hcall htr hord hdone hrd hop hbusy hev hx' hholds hfree hothers hI =>
    have hne : t' ≠ t := by
      rintro rfl
      rw [hx] at hx'
      cases hx'
      rw [hx1] at hholds; cases hholds
    refine .held t' op done x' seq tr0 tr1 s1 huse hcall htr hord hdone hrd hop hbusy hev ?_ hholds hfree ?_ hI
    · rw [List.getElem?_set_ne (fun e => hne e.symm)]; exact hx'
    · intro u z hu hz
      rcases getElem?_set_of _ _ _ _ _ hz with ⟨rfl, rfl⟩ | ⟨-, hz⟩
      · exact ⟨hy1, hy2, hy3⟩
      · exact hothers u z hu hz
  | dead t' op done seq tr0 tr1 tl s1 e huse hcall htr htl hord hdone hop hbusy hev htasks hI =>
    refine .dead t' op done seq tr0 tr1 tl s1 e huse hcall htr htl hord hdone hop hbusy hev ?_ hI
    intro u z hz
    rcases getElem?_set_of _ _ _ _ _ hz with ⟨rfl, rfl⟩ | ⟨-, hz⟩
    · exact ⟨hy1, hy2⟩
    · exact htasks u z hz

theorem run_inv (c : MmCfg) (s0 : List MmIn → Sim MmIn MmOut) (I : Nat) (g g' : MmSys) (t : Nat) (h : Inv c s0 I g) (hs : g.run c t = some g')
    (hcalm : CalmStep g (.run t)) (hwill : ∀ (u : Nat) x, g.tasks[u]? = some x → ∀ op ∈ leftOf x, mmRefuses c op = none)
    (hq : ∀ (u : Nat) op ops, g.tasks[u]? = some (.woken op ops) → ∀ n, op ≠ .pause n) : Inv c s0 I g' := by
  unfold MmSys.run at hs
  cases hx : g.tasks[t]? with
  | none => rw [hx] at hs; cases hs
  | some x =>
    rw [hx] at hs
    have hbusyEv : g.out.busy = true → g.eventSet = false := by
      intro hb
      cases h with
      | free seq ph huse hord hrd hbusy htasks hwoken hI => rw [hbusy] at hb; cases hb
      | held t' op done x' seq tr0 tr1 s1 huse hcall htr hord hdone hrd hop hbusy hev hx' hholds hfree hothers hI => exact hev
      | dead t' op done seq tr0 tr1 tl s1 e huse hcall htr htl hord hdone hop hbusy hev htasks hI => exact hev
    have hcallcase : ∀ op ops, (∀ n, op ≠ .pause n) → x = .idle (op :: ops) →
        (match mmRefuses c op with
          | some e => some { g with tasks := g.tasks.set t (.dead e) }
          | none =>
            if g.out.busy && !g.eventSet then some { g with tasks := g.tasks.set t (.waiting op ops) }
            else if g.out.busy then some { g with tasks := g.tasks.set t (.woken op ops) }
            else some (g.take c t op ops)) = some g' → Inv c s0 I g' := by
      rintro op ops hop rfl hs
      rw [hwill t _ hx op (by simp [leftOf])] at hs
      simp only at hs
      cases hb : g.out.busy with
      | true =>
        have hc : (g.out.busy && !g.eventSet) = true := by rw [hb, hbusyEv hb]; rfl
        rw [if_pos hc] at hs
        cases hs
        exact set_inv c s0 I g t _ (.waiting op ops) hx rfl rfl rfl rfl (fun _ => hb) h
      | false =>
        rw [hb] at hs
        simp only [Bool.false_and, Bool.false_eq_true, if_false, Option.some.injEq] at hs
        subst hs
        cases h with
        | free seq ph huse hord hrd hbusy htasks hwoken hI =>
          refine take_inv c s0 I g t op ops seq ph huse hord hrd hbusy hop (hwill t _ hx op (by simp [leftOf])) _ hx ?_ hI
          intro u y hu hy
          refine ⟨(htasks u y hy).1, ?_, (htasks u y hy).2.2⟩
          refine hcalm.1 t _ y rfl hx ?_ (List.mem_of_getElem? hy)
          cases op with
          | pause n => exact absurd rfl (hop n)
          | read a => rfl
          | write a v => rfl
        | held t' op done x' seq tr0 tr1 s1 huse hcall htr hord hdone hrd hop hbusy hev hx' hholds hfree hothers hI => rw [hbusy] at hb; cases hb
        | dead t' op done seq tr0 tr1 tl s1 e huse hcall htr htl hord hdone hop hbusy hev htasks hI => rw [hbusy] at hb; cases hb
    cases x with
    | idle l =>
      cases l with
      | nil => cases hs
      | cons op ops =>
        cases op with
        | pause n =>
          cases n with
          | zero => cases hs; exact set_inv c s0 I g t _ _ hx rfl rfl rfl rfl (fun e => by cases e) h
          | succ n => cases hs; exact set_inv c s0 I g t _ _ hx rfl rfl rfl rfl (fun e => by cases e) h
        | read a => exact hcallcase _ _ (by simp) rfl hs
        | write a v => exact hcallcase _ _ (by simp) rfl hs
    | paused n ops => cases hs
    | waiting op ops => cases hs
    | woken op ops =>
      cases hs
      cases h with
      | free seq ph huse hord hrd hbusy htasks hwoken hI =>
        refine take_inv c s0 I g t op ops seq ph huse hord hrd hbusy (hq t op ops hx) (hwill t _ hx op (by simp [leftOf])) _ hx ?_ hI
        intro u y hu hy
        refine ⟨(htasks u y hy).1, ?_, (htasks u y hy).2.2⟩
        cases hw : isWoken y with
        | false => rfl
        | true => exact absurd (hwoken u t y _ hy hx hw rfl) hu
      | held t' op done x' seq tr0 tr1 s1 huse hcall htr hord hdone hrd hop hbusy hev hx' hholds hfree hothers hI =>
        by_cases ht : t = t'
        · subst ht
          rw [hx] at hx'
          cases hx'
          cases hholds
        · have := (hothers t _ ht hx).2.1
          cases this
      | dead t' op done seq tr0 tr1 tl s1 e huse hcall htr htl hord hdone hop hbusy hev htasks hI => have := (htasks t _ hx).2; cases this
    | ready p ops =>
      cases hs
      cases h with
      | free seq ph huse hord hrd hbusy htasks hwoken hI => have := (htasks t _ hx).1; cases this
      | held t' op done x' seq tr0 tr1 s1 huse hcall htr hord hdone hrd hop hbusy hev hx' hholds hfree hothers hI =>
        by_cases ht : t = t'
        · subst ht
          rw [hx] at hx'
          cases hx'
          exact resume_inv c s0 I g t p ops op done seq tr0 tr1 s1 huse hcall htr hord hdone hrd hop hbusy hfree hev _ hx hothers hcalm.2 hI
        · have := (hothers t _ ht hx).1
          cases this
      | dead t' op done seq tr0 tr1 tl s1 e huse hcall htr htl hord hdone hop hbusy hev htasks hI => have := (htasks t _ hx).1; cases this
    | atEdge p ops => cases hs
    | atRO test p ops => cases hs
    | atNext p ops => cases hs
    | dead e => cases hs


theorem ro_of_not_holds {x : TaskSt} (cur : MmIn) (h : holds x = false) : x.ro cur = x := by
  cases x <;> first | rfl | cases h

theorem next_of_not_holds {x : TaskSt} (h : holds x = false) : x.next = x := by
  cases x <;> first | rfl | cases h

theorem edge_of_not_holds {x : TaskSt} (h : holds x = false) :
    holds x.edge = false ∧ isWoken x.edge = isWoken x ∧ isWaiting x.edge = isWaiting x ∧ isDead x.edge = isDead x := by
  cases x with
  | paused n ops => cases n <;> exact ⟨rfl, rfl, rfl, rfl⟩
  | _ => first | exact ⟨rfl, rfl, rfl, rfl⟩ | cases h

theorem getElem?_map_of {α β : Type} (f : α → β) (l : List α) (u : Nat) (y : β) (h : (l.map f)[u]? = some y) : ∃ x, l[u]? = some x ∧ f x = y := by
  rw [List.getElem?_map] at h
  cases hx : l[u]? with
  | none => rw [hx] at h; cases h
  | some x => rw [hx] at h; exact ⟨x, rfl, by simpa using h⟩

theorem getElem?_map_at {α β : Type} (f : α → β) (l : List α) (u : Nat) (x : α) (h : l[u]? = some x) : (l.map f)[u]? = some (f x) := by
  rw [List.getElem?_map, h]; rfl

theorem not_any {l : List TaskSt} {f : TaskSt → Bool} (h : l.any f = false) (u : Nat) (x : TaskSt) (hx : l[u]? = some x) : f x = false :=
  (by simpa using List.any_eq_false.1 h x (List.mem_of_getElem? hx))

theorem finish_err (x : M MmIn MmOut (Option LogicArray)) (s s' : Sim MmIn MmOut) (e : PyErr) (h : x s = ([], .err e s')) : finish x s = ([], .err e s') := by
  unfold finish
  rw [bind_run, h]
  rfl

theorem finish_edge_cons (k : M MmIn MmOut (Option LogicArray)) (ph : Phase) (out : MmOut) (prev cur i : MmIn) (F : List MmIn) :
    finish (awaitEdge >>= fun _ => k) ⟨ph, out, prev, cur, i :: F⟩ = prepend [(out, cur)] (finish k ⟨.edge, out, cur, i, F⟩) := by
  unfold finish
  rw [bind_assoc_run, bind_awaitEdge_cons _ _ i F rfl]
  rfl

theorem prepend_append {I O α : Type} (a b : List (O × I)) (r : Res I O α) : prepend a (prepend b r) = prepend (a ++ b) r := by
  simp [prepend]

/-- the phase of a task that waits does not matter -/
theorem rem_phase (x : TaskSt) (hx : holds x = true) (hr : x.runnable = false) (ph ph' : Phase) (out : MmOut) (prev cur : MmIn) (F : List MmIn) :
    norm (finish (remM x) ⟨ph, out, prev, cur, F⟩) = norm (finish (remM x) ⟨ph', out, prev, cur, F⟩) := by
  cases x with
  | ready p ops => cases hr
  | atEdge p ops => exact edge_norm _ _ _ _ _ _ _
  | atRO test p ops => rfl
  | atNext p ops => rfl
  | _ => cases hx

/-- changes of the phase that leave tasks outside calls alone -/
theorem phase_inv (c : MmCfg) (s0 : List MmIn → Sim MmIn MmOut) (I : Nat) (g : MmSys) (ph : Phase) (f : TaskSt → TaskSt) (h : Inv c s0 I g)
    (hf : ∀ x, holds x = false → f x = x)
    (hh : ∀ (u : Nat) x, g.tasks[u]? = some x → holds x = true → lockFreeSt x →
      (∃ e, f x = .dead e ∧ ∀ F, ∃ s', norm (finish (remM x) (nowS g F)) = ([], .err e s') ∧ s'.out = g.out) ∨
      (holds (f x) = true ∧ lockFreeSt (f x) ∧ ∀ F, norm (finish (remM x) (nowS g F)) = norm (finish (remM (f x)) ⟨ph, g.out, g.prev, g.cur, F⟩))) :
    Inv c s0 I { g with phase := ph, tasks := g.tasks.map f } := by
  cases h with
  | free seq ph' huse hord hrd hbusy htasks hwoken hI =>
    refine .free seq ph' huse hord hrd hbusy ?_ ?_ hI
    · intro u z hz
      obtain ⟨x, hx, rfl⟩ := getElem?_map_of _ _ _ _ hz
      rw [hf x (htasks u x hx).1]
      exact htasks u x hx
    · intro u v z w hz hw hz1 hw1
      obtain ⟨x, hx, rfl⟩ := getElem?_map_of _ _ _ _ hz
      obtain ⟨y, hy, rfl⟩ := getElem?_map_of _ _ _ _ hw
      rw [hf x (htasks u x hx).1] at hz1
      rw [hf y (htasks v y hy).1] at hw1
      exact hwoken u v x y hx hy hz1 hw1
  | held t op done x seq tr0 tr1 s1 huse hcall htr hord hdone hrd hop hbusy hev hx hholds hfree hothers hI =>
    have hoth : ∀ (u : Nat) z, u ≠ t → (g.tasks.map f)[u]? = some z → holds z = false ∧ isWoken z = false ∧ isDead z = false := by
      intro u z hu hz
      obtain ⟨y, hy, rfl⟩ := getElem?_map_of _ _ _ _ hz
      rw [hf y (hothers u y hu hy).1]
      exact hothers u y hu hy
    rcases hh t x hx hholds hfree with ⟨e, he, hF⟩ | ⟨h1, h2, h3⟩
    · refine .dead t op done seq tr0 tr1 [] s1 e huse ?_ (by rw [List.append_nil]; exact htr) (by simp) hord hdone hop hbusy hev ?_ hI
      · intro F
        obtain ⟨s', g1, g2⟩ := hF F
        refine ⟨s', ?_, g2⟩
        rw [hcall F, norm_prepend, g1]
        simp [prepend]
      · intro u z hz
        by_cases hu : u = t
        · subst hu
          obtain ⟨y, hy, rfl⟩ := getElem?_map_of _ _ _ _ hz
          rw [hx] at hy
          cases hy
          rw [he]
          exact ⟨rfl, rfl⟩
        · exact ⟨(hoth u z hu hz).1, (hoth u z hu hz).2.1⟩
    · refine .held t op done (f x) seq tr0 tr1 s1 huse ?_ htr hord hdone hrd hop hbusy hev (getElem?_map_at f _ _ _ hx) h1 h2 hoth hI
      intro F
      rw [hcall F, norm_prepend, norm_prepend, h3 F]
      rfl
  | dead t op done seq tr0 tr1 tl s1 e huse hcall htr htl hord hdone hop hbusy hev htasks hI =>
    refine .dead t op done seq tr0 tr1 tl s1 e huse hcall htr htl hord hdone hop hbusy hev ?_ hI
    intro u z hz
    obtain ⟨x, hx, rfl⟩ := getElem?_map_of _ _ _ _ hz
    rw [hf x (htasks u x hx).1]
    exact htasks u x hx

theorem ro_inv (c : MmCfg) (s0 : List MmIn → Sim MmIn MmOut) (I : Nat) (g : MmSys) (h : Inv c s0 I g) (hr : g.tasks.any TaskSt.runnable = false) :
    Inv c s0 I { g with phase := .ro, tasks := g.tasks.map (TaskSt.ro g.cur) } := by
  refine phase_inv c s0 I g .ro _ h (fun x hx => ro_of_not_holds _ hx) fun u x hx hh hl => ?_
  have hrun := not_any hr u x hx
  cases x with
  | ready p ops => cases hrun
  | atEdge p ops => exact .inr ⟨rfl, hl, fun F => rem_phase _ rfl rfl _ _ _ _ _ _⟩
  | atNext p ops => exact .inr ⟨rfl, hl, fun F => rem_phase _ rfl rfl _ _ _ _ _ _⟩
  | atRO test p ops =>
    cases ht : test g.cur with
    | error e =>
      refine .inl ⟨e, by simp [TaskSt.ro, ht], fun F => ⟨⟨.mid, g.out, g.prev, g.cur, F⟩, ?_, rfl⟩⟩
      exact congrArg norm (finish_err (remM (.atRO test p ops)) _ _ e (roM_error test (fun _ => p.toM) (nowS g F) e ht))
    | ok b =>
      cases b with
      | true =>
        have he : TaskSt.ro g.cur (.atRO test p ops) = .ready p ops := by simp [TaskSt.ro, ht]
        rw [he]
        refine .inr ⟨rfl, hl, fun F => ?_⟩
        exact congrArg norm (finish_silent (remM (.atRO test p ops)) (remM (.ready p ops)) _ _ (roM_true test (fun _ => p.toM) (nowS g F) ht))
      | false =>
        have he : TaskSt.ro g.cur (.atRO test p ops) = .atEdge (.untilRO test p) ops := by simp [TaskSt.ro, ht]
        rw [he]
        refine .inr ⟨rfl, hl, fun F => ?_⟩
        exact congrArg norm (finish_silent (remM (.atRO test p ops)) (remM (.atEdge (.untilRO test p) ops)) _ _
          (roM_false test (fun _ => p.toM) (nowS g F) ht))
  | _ => cases hh

theorem next_inv (c : MmCfg) (s0 : List MmIn → Sim MmIn MmOut) (I : Nat) (g : MmSys) (h : Inv c s0 I g) (hr : g.tasks.any TaskSt.runnable = false) :
    Inv c s0 I { g with phase := .mid, tasks := g.tasks.map TaskSt.next } := by
  refine phase_inv c s0 I g .mid _ h (fun x hx => next_of_not_holds hx) fun u x hx hh hl => ?_
  have hrun := not_any hr u x hx
  cases x with
  | ready p ops => cases hrun
  | atEdge p ops => exact .inr ⟨rfl, hl, fun F => rem_phase _ rfl rfl _ _ _ _ _ _⟩
  | atNext p ops => exact .inr ⟨rfl, hl, fun F => rfl⟩
  | atRO test p ops => exact .inr ⟨rfl, hl, fun F => rem_phase _ rfl rfl _ _ _ _ _ _⟩
  | _ => cases hh

/-- the edges nobody uses -/
def idleAt (g : MmSys) : TEv → Nat
  | .edge _ => if g.out.busy then 0 else 1
  | _ => 0

theorem edge_inv (c : MmCfg) (s0 : List MmIn → Sim MmIn MmOut) (I : Nat) (g : MmSys) (i : MmIn) (h : Inv c s0 I g) (hr : g.tasks.any TaskSt.runnable = false)
    (hro : g.tasks.any TaskSt.wantsRO = false) (hnx : g.tasks.any TaskSt.wantsNext = false) :
    Inv c s0 (I + idleAt g (.edge i)) { g with
      phase := .edge, prev := g.cur, cur := i, tasks := g.tasks.map TaskSt.edge,
      trace := g.trace ++ [(g.out, g.cur)], ins := g.ins ++ [i] } := by
  have hins : ∀ F, g.ins ++ [i] ++ F = g.ins ++ (i :: F) := by simp
  cases h with
  | free seq ph huse hord hrd hbusy htasks hwoken hI =>
    refine .free (seq ++ [.pause 1]) .edge ?_ ?_ hrd hbusy ?_ ?_ (by rw [idleEdges_append, hI]; simp [idleAt, hbusy, idleEdges])
    · intro F
      simp only
      rw [hins, mmUse_append c seq _ _ _ _ _ (huse (i :: F)), mmUse_one c (.pause 1) _ [(g.out, g.cur)] none ⟨.edge, g.out, g.cur, i, F⟩ rfl]
      simp
    · simp only [hord]
      simp [callsOf]
    · intro u z hz
      obtain ⟨x, hx, rfl⟩ := getElem?_map_of _ _ _ _ hz
      obtain ⟨h1, h2, h3⟩ := htasks u x hx
      obtain ⟨e1, e2, e3, e4⟩ := edge_of_not_holds h1
      exact ⟨e1, e3.trans h2, e4.trans h3⟩
    · intro u v z w hz hw hz1 hw1
      obtain ⟨x, hx, rfl⟩ := getElem?_map_of _ _ _ _ hz
      obtain ⟨y, hy, rfl⟩ := getElem?_map_of _ _ _ _ hw
      rw [(edge_of_not_holds (htasks u x hx).1).2.1] at hz1
      rw [(edge_of_not_holds (htasks v y hy).1).2.1] at hw1
      exact hwoken u v x y hx hy hz1 hw1
  | held t op done x seq tr0 tr1 s1 huse hcall htr hord hdone hrd hop hbusy hev hx hholds hfree hothers hI =>
    have h1 := not_any hr t x hx
    have h2 := not_any hro t x hx
    have h3 := not_any hnx t x hx
    cases x with
    | ready p ops => cases h1
    | atRO test p ops => cases h2
    | atNext p ops => cases h3
    | atEdge p ops =>
      refine .held t op done (.ready p ops) seq tr0 (tr1 ++ [(g.out, g.cur)]) (fun F => s1 (i :: F)) ?_ ?_ ?_ hord hdone hrd hop hbusy hev
        (getElem?_map_at TaskSt.edge _ _ _ hx) rfl hfree ?_ (by rw [hI]; simp [idleAt, hbusy])
      · intro F
        simp only
        rw [hins, huse (i :: F)]
      · intro F
        rw [hcall (i :: F), ← prepend_append]
        exact congrArg (fun r => norm (prepend tr1 r)) (finish_edge_cons p.toM g.phase g.out g.prev g.cur i F)
      · simp only [htr, List.append_assoc]
      · intro u z hu hz
        obtain ⟨y, hy, rfl⟩ := getElem?_map_of _ _ _ _ hz
        obtain ⟨q1, q2, q3⟩ := hothers u y hu hy
        obtain ⟨e1, e2, e3, e4⟩ := edge_of_not_holds q1
        exact ⟨e1, e2.trans q2, e4.trans q3⟩
    | _ => cases hholds
  | dead t op done seq tr0 tr1 tl s1 e huse hcall htr htl hord hdone hop hbusy hev htasks hI =>
    refine .dead t op done seq tr0 tr1 (tl ++ [(g.out, g.cur)]) (fun F => s1 (i :: F)) e ?_ (fun F => hcall (i :: F)) ?_ ?_ hord hdone hop hbusy hev ?_ (by rw [hI]; simp [idleAt, hbusy])
    · intro F
      simp only
      rw [hins, huse (i :: F)]
    · simp only [htr, List.append_assoc]
    · intro q hq
      rcases List.mem_append.1 hq with hq | hq
      · exact htl q hq
      · simp only [List.mem_singleton] at hq; subst hq; rfl
    · intro u z hz
      obtain ⟨x, hx, rfl⟩ := getElem?_map_of _ _ _ _ hz
      obtain ⟨q1, q2⟩ := htasks u x hx
      obtain ⟨e1, e2, e3, e4⟩ := edge_of_not_holds q1
      exact ⟨e1, e2.trans q2⟩

theorem step_inv (c : MmCfg) (s0 : List MmIn → Sim MmIn MmOut) (I : Nat) (g g' : MmSys) (e : TEv) (h : Inv c s0 I g) (hs : g.step c e = some g')
    (hcalm : CalmStep g e) (hwill : ∀ (u : Nat) x, g.tasks[u]? = some x → ∀ op ∈ leftOf x, mmRefuses c op = none)
    (hq : ∀ (u : Nat) op ops, g.tasks[u]? = some (.woken op ops) → ∀ n, op ≠ .pause n) : Inv c s0 (I + idleAt g e) g' := by
  cases e with
  | run t => exact run_inv c s0 I g g' t h hs hcalm hwill hq
  | ro =>
    simp only [MmSys.step] at hs
    split at hs
    · cases hs
    · rename_i hc
      cases hs
      simp only [Bool.not_eq_true, Bool.or_eq_false_iff] at hc
      exact ro_inv c s0 I g h hc.1
  | next =>
    simp only [MmSys.step] at hs
    split at hs
    · cases hs
    · rename_i hc
      cases hs
      simp only [Bool.not_eq_true, Bool.or_eq_false_iff] at hc
      exact next_inv c s0 I g h hc.1
  | edge i =>
    simp only [MmSys.step] at hs
    split at hs
    · cases hs
    · rename_i hc
      cases hs
      simp only [Bool.not_eq_true, Bool.or_eq_false_iff] at hc
      exact edge_inv c s0 I g i h hc.1.1 hc.1.2 hc.2

end CocotbBus
