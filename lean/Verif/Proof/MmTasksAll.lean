import Verif.Proof.MmTasks
import Verif.Props.MmLoop

/-! # Several tasks that use one Avalon-MM master: whole executions -/

namespace CocotbBus
open Coro Spec

/-- the call for which the task waits is one -/
def okQ : TaskSt → Prop
  | .waiting op _ => ∀ n, op ≠ .pause n
  | .woken op _ => ∀ n, op ≠ .pause n
  | _ => True

/-- edges of pauses the task has still to make -/
def pausesLeft : TaskSt → Nat
  | .paused n ops => n + 1 + idleEdges ops
  | x => idleEdges (leftOf x)

/-- what a step does to task `u` if it lets the calls `l` begin -/
structure Rel (u : Nat) (l : List (Nat × MmOp)) (x y : TaskSt) : Prop where
  alive : isDead y = false → isDead x = false ∧ callsOf (leftOf x) = callsBy u l ++ callsOf (leftOf y)
  dead : isDead y = true → callsBy u l <+: callsOf (leftOf x)
  left : ∀ op ∈ leftOf y, op ∈ leftOf x
  queued : okQ x → okQ y
  less : pausesLeft y ≤ pausesLeft x
  done : isDone x = true → isDone y = true
  dies : isDead x = true → isDead y = true

theorem callsBy_nil (u : Nat) : callsBy u [] = [] := rfl

theorem callsBy_other (u t : Nat) (op : MmOp) (h : u ≠ t) : callsBy u [(t, op)] = [] := by
  simp [callsBy, Ne.symm h]

theorem callsBy_self (t : Nat) (op : MmOp) : callsBy t [(t, op)] = [op] := by
  simp [callsBy]

theorem callsBy_append (u : Nat) (a b : List (Nat × MmOp)) : callsBy u (a ++ b) = callsBy u a ++ callsBy u b := by
  simp [callsBy]

theorem callsOf_call (op : MmOp) (ops : List MmOp) (h : ∀ n, op ≠ .pause n) : callsOf (op :: ops) = op :: callsOf ops := by
  cases op with
  | pause n => exact absurd rfl (h n)
  | read a => rfl
  | write a v => rfl

theorem Rel.same (u : Nat) (l : List (Nat × MmOp)) (x y : TaskSt) (hl : callsBy u l = []) (hd : isDead y = isDead x) (h : leftOf y = leftOf x)
    (hp : pausesLeft y ≤ pausesLeft x) (hdn : isDone x = true → isDone y = true) (hq : okQ x → okQ y) : Rel u l x y := by
  refine ⟨fun hy => ⟨hd ▸ hy, ?_⟩, fun _ => ?_, fun op hop => h ▸ hop, hq, hp, hdn, fun hx => hd ▸ hx⟩
  · rw [hl, h]; rfl
  · rw [hl]; exact List.nil_prefix

theorem Rel.wake (u : Nat) (l : List (Nat × MmOp)) (x : TaskSt) (hl : callsBy u l = []) : Rel u l x x.wake := by
  refine Rel.same u l _ _ hl (wake_spec x).2.2.1 ?_ ?_ ?_ ?_
  · cases x <;> rfl
  · cases x <;> exact Nat.le_refl _
  · cases x <;> exact id
  · cases x <;> exact id

/-- all tasks of a step -/
def Rels (g g' : MmSys) (l : List (Nat × MmOp)) : Prop :=
  g'.order = g.order ++ l ∧ (∀ q ∈ l, q.1 < g.tasks.length) ∧ g'.tasks.length = g.tasks.length ∧ ∀ (u : Nat) x, g.tasks[u]? = some x → okQ x → ∃ y, g'.tasks[u]? = some y ∧ Rel u l x y

theorem rels_set (g g' : MmSys) (l : List (Nat × MmOp)) (t : Nat) (x y : TaskSt) (f : TaskSt → TaskSt) (ho : g'.order = g.order ++ l)
    (ht : g'.tasks = (g.tasks.map f).set t y) (hx : g.tasks[t]? = some x) (hl : ∀ u, u ≠ t → callsBy u l = []) (ht' : ∀ q ∈ l, q.1 = t)
    (hf : ∀ u z, callsBy u l = [] → Rel u l z (f z)) (hxy : okQ x → Rel t l x y) : Rels g g' l := by
  refine ⟨ho, fun q hq => by rw [ht' q hq]; exact (List.getElem?_eq_some_iff.1 hx).1, by rw [ht]; simp, ?_⟩
  intro u z hz hqz
  by_cases hu : u = t
  · subst hu
    rw [hx] at hz
    cases hz
    refine ⟨y, ?_, hxy hqz⟩
    rw [ht]
    exact getElem?_set_at _ _ _ _ (getElem?_map_at f _ _ _ hx)
  · refine ⟨f z, ?_, hf u z (hl u hu)⟩
    rw [ht, List.getElem?_set_ne (fun e => hu e.symm)]
    exact getElem?_map_at f _ _ _ hz

theorem resume_rels (g0 g : MmSys) (l : List (Nat × MmOp)) (t : Nat) (x : TaskSt) (p : Prog MmIn MmOut (Option LogicArray)) (ops : List MmOp)
    (ho : g.order = g0.order ++ l) (ht : g.tasks = g0.tasks) (hx : g0.tasks[t]? = some x) (hl : ∀ u, u ≠ t → callsBy u l = []) (ht' : ∀ q ∈ l, q.1 = t)
    (hxy : okQ x → isDead x = false ∧ callsOf (leftOf x) = callsBy t l ++ callsOf ops ∧ (∀ op ∈ ops, op ∈ leftOf x) ∧
      idleEdges ops ≤ pausesLeft x ∧ isDone x = false) :
    Rels g0 (g.resume t p ops) l := by
  have hid : ∀ u z, callsBy u l = [] → Rel u l z (id z) := fun u z h => Rel.same u l z z h rfl rfl (Nat.le_refl _) id id
  have hg : g.tasks = g0.tasks.map id := by rw [ht, List.map_id]
  have hmk : ∀ y, leftOf y = ops → pausesLeft y = idleEdges ops → isDead y = false → okQ y → okQ x → Rel t l x y := by
    intro y h1 h1' h2 h3 hqx
    obtain ⟨a, b, c, d, e⟩ := hxy hqx
    exact ⟨fun _ => ⟨a, by rw [h1]; exact b⟩, fun h => by (rw [h2] at h; cases h), by rw [h1]; exact c, fun _ => h3, by rw [h1']; exact d,
      fun h => (by rw [e] at h; cases h), fun h => (by rw [a] at h; cases h)⟩
  unfold MmSys.resume
  generalize p.exec g.phase g.prev g.cur g.out = r
  obtain ⟨o, st⟩ := r
  cases st with
  | ret a => exact rels_set g0 _ l t x (.idle ops) TaskSt.wake ho (by simp only [ht]) hx hl ht' (fun u z h => Rel.wake u l z h) (hmk _ rfl rfl rfl trivial)
  | raise e =>
    refine rels_set g0 _ l t x (.dead e) id ho (by simp only [hg]) hx hl ht' hid fun hqx => ?_
    obtain ⟨a, b, c, d, e⟩ := hxy hqx
    exact ⟨fun h => (by cases h), fun _ => ⟨callsOf ops, b.symm⟩, fun op h => (by cases h), fun _ => trivial, Nat.zero_le _,
      fun h => (by rw [e] at h; cases h), fun _ => rfl⟩
  | edge k => exact rels_set g0 _ l t x (.atEdge k ops) id ho (by simp only [hg]) hx hl ht' hid (hmk _ rfl rfl rfl trivial)
  | ro test k => exact rels_set g0 _ l t x (.atRO test k ops) id ho (by simp only [hg]) hx hl ht' hid (hmk _ rfl rfl rfl trivial)
  | next k => exact rels_set g0 _ l t x (.atNext k ops) id ho (by simp only [hg]) hx hl ht' hid (hmk _ rfl rfl rfl trivial)

theorem take_rels (c : MmCfg) (g : MmSys) (t : Nat) (x : TaskSt) (op : MmOp) (ops : List MmOp) (hx : g.tasks[t]? = some x) (hd : isDead x = false)
    (hl : leftOf x = op :: ops) (hp : pausesLeft x = idleEdges (op :: ops)) (hdn : isDone x = false) (hop : okQ x → ∀ n, op ≠ .pause n) : Rels g (g.take c t op ops) [(t, op)] := by
  unfold MmSys.take
  refine resume_rels g _ [(t, op)] t x _ ops rfl rfl hx (fun u hu => callsBy_other u t op hu) (by simp) fun hq => ⟨hd, ?_, ?_, ?_, hdn⟩
  · rw [hl, callsOf_call op ops (hop hq), callsBy_self]; rfl
  · intro o ho; rw [hl]; exact List.mem_cons_of_mem _ ho
  · rw [hp]
    cases op with
    | pause n => exact absurd rfl (hop hq n)
    | read a => exact Nat.le_refl _
    | write a v => exact Nat.le_refl _

theorem map_rels (g g' : MmSys) (f : TaskSt → TaskSt) (ho : g'.order = g.order) (ht : g'.tasks = g.tasks.map f)
    (hf : ∀ u x, Rel u [] x (f x)) : Rels g g' [] := by
  refine ⟨by rw [ho, List.append_nil], by simp, by rw [ht, List.length_map], ?_⟩
  intro u x hx _
  exact ⟨f x, by rw [ht]; exact getElem?_map_at f _ _ _ hx, hf u x⟩

theorem step_rels (c : MmCfg) (g g' : MmSys) (e : TEv) (hs : g.step c e = some g') : ∃ l, Rels g g' l := by
  have hid : ∀ u z, callsBy u [] = [] → Rel u [] z (id z) := fun u z h => Rel.same u [] z z h rfl rfl (Nat.le_refl _) id id
  have hmi : g.tasks = g.tasks.map id := by rw [List.map_id]
  cases e with
  | run t =>
    simp only [MmSys.step, MmSys.run] at hs
    cases hx : g.tasks[t]? with
    | none => rw [hx] at hs; cases hs
    | some x =>
      rw [hx] at hs
      have hset : ∀ y, (okQ x → Rel t [] x y) → Rels g { g with tasks := g.tasks.set t y } [] := by
        intro y h
        exact rels_set g _ [] t x y id (List.append_nil _).symm (by rw [List.map_id]) hx (fun u _ => rfl) (by simp) hid h
      have hcallcase : ∀ op ops, (∀ n, op ≠ .pause n) → x = .idle (op :: ops) →
          (match mmRefuses c op with
            | some e => some { g with tasks := g.tasks.set t (.dead e) }
            | none =>
              if g.out.busy && !g.eventSet then some { g with tasks := g.tasks.set t (.waiting op ops) }
              else if g.out.busy then some { g with tasks := g.tasks.set t (.woken op ops) }
              else some (g.take c t op ops)) = some g' → ∃ l, Rels g g' l := by
        rintro op ops hop rfl hs
        split at hs
        · cases hs
          exact ⟨[], hset _ fun _ => ⟨fun h => (by cases h), fun _ => List.nil_prefix, fun op h => (by cases h), fun _ => trivial, Nat.zero_le _,
            fun h => (by cases h), fun _ => rfl⟩⟩
        · split at hs
          · cases hs
            exact ⟨[], hset _ fun _ => Rel.same _ _ _ _ rfl rfl rfl (Nat.le_refl _) (fun h => by cases h) fun _ => hop⟩
          · split at hs
            · cases hs
              exact ⟨[], hset _ fun _ => Rel.same _ _ _ _ rfl rfl rfl (Nat.le_refl _) (fun h => by cases h) fun _ => hop⟩
            · cases hs
              exact ⟨_, take_rels c g t _ op ops hx rfl rfl rfl rfl fun _ => hop⟩
      cases x with
      | idle l =>
        cases l with
        | nil => cases hs
        | cons op ops =>
          cases op with
          | pause n =>
            have hp : ∀ y, leftOf y = ops → pausesLeft y ≤ n + idleEdges ops → isDead y = false → okQ y → Rel t [] (.idle (.pause n :: ops)) y := by
              intro y h1 h1' h2 h3
              refine ⟨fun _ => ⟨rfl, ?_⟩, fun h => (by rw [h2] at h; cases h), ?_, fun _ => h3, h1', fun h => (by cases h), fun h => (by cases h)⟩
              · rw [h1]; rfl
              · intro o ho; rw [h1] at ho; exact List.mem_cons_of_mem _ ho
            cases n with
            | zero => cases hs; exact ⟨[], hset _ fun _ => hp _ rfl (by simp [pausesLeft, leftOf]) rfl trivial⟩
            | succ n => cases hs; exact ⟨[], hset _ fun _ => hp _ rfl (Nat.le_refl _) rfl trivial⟩
          | read a => exact hcallcase _ _ (by simp) rfl hs
          | write a v => exact hcallcase _ _ (by simp) rfl hs
      | woken op ops => cases hs; exact ⟨_, take_rels c g t _ op ops hx rfl rfl rfl rfl id⟩
      | ready p ops =>
        cases hs
        exact ⟨[], resume_rels g g [] t _ p ops (List.append_nil _).symm rfl hx (fun u _ => rfl) (by simp) fun _ => ⟨rfl, rfl, fun op h => h, Nat.le_refl _, rfl⟩⟩
      | paused n ops => cases hs
      | waiting op ops => cases hs
      | atEdge p ops => cases hs
      | atRO test p ops => cases hs
      | atNext p ops => cases hs
      | dead e => cases hs
  | ro =>
    simp only [MmSys.step] at hs
    split at hs
    · cases hs
    · cases hs
      refine ⟨[], map_rels g _ _ rfl rfl fun u x => ?_⟩
      cases x with
      | atRO test p ops =>
        cases ht : test g.cur with
        | error e =>
          simp only [TaskSt.ro, ht]
          exact ⟨fun h => (by cases h), fun _ => List.nil_prefix, fun op h => (by cases h), fun _ => trivial, Nat.zero_le _,
            fun h => (by cases h), fun _ => rfl⟩
        | ok b =>
          cases b <;> simp only [TaskSt.ro, ht] <;> exact Rel.same _ _ _ _ rfl rfl rfl (Nat.le_refl _) (fun h => by cases h) fun _ => trivial
      | _ => exact Rel.same _ _ _ _ rfl rfl rfl (Nat.le_refl _) id id
  | next =>
    simp only [MmSys.step] at hs
    split at hs
    · cases hs
    · cases hs
      refine ⟨[], map_rels g _ _ rfl rfl fun u x => ?_⟩
      cases x <;> exact Rel.same _ _ _ _ rfl rfl rfl (Nat.le_refl _) id id
  | edge i =>
    simp only [MmSys.step] at hs
    split at hs
    · cases hs
    · cases hs
      refine ⟨[], map_rels g _ _ rfl rfl fun u x => ?_⟩
      cases x with
      | paused n ops => cases n <;> exact Rel.same _ _ _ _ rfl rfl rfl (by simp [TaskSt.edge, pausesLeft, leftOf]) (fun h => by cases h) id
      | _ => exact Rel.same _ _ _ _ rfl rfl rfl (Nat.le_refl _) id id

/-- each task has made the first calls of its program, in its order -/
structure MadeBy (progs : List (List MmOp)) (g : MmSys) : Prop where
  length : g.tasks.length = progs.length
  tags : ∀ q ∈ g.order, q.1 < progs.length
  task : ∀ (t : Nat) p x, progs[t]? = some p → g.tasks[t]? = some x →
    (isDead x = false → callsOf p = callsBy t g.order ++ callsOf (leftOf x)) ∧ callsBy t g.order <+: callsOf p ∧
    (∀ op ∈ leftOf x, op ∈ p) ∧ okQ x

theorem step_tracks (c : MmCfg) (progs : List (List MmOp)) (g g' : MmSys) (e : TEv) (h : MadeBy progs g) (hs : g.step c e = some g') : MadeBy progs g' := by
  obtain ⟨l, h1, h0, h2, h3⟩ := step_rels c g g' e hs
  refine ⟨h2.trans h.length, ?_, ?_⟩
  · intro q hq
    rw [h1] at hq
    rcases List.mem_append.1 hq with hq | hq
    · exact h.tags q hq
    · rw [← h.length]; exact h0 q hq
  intro t p y hp hy
  have hlt : t < g.tasks.length := by rw [← h2]; exact (List.getElem?_eq_some_iff.1 hy).1
  have hx : g.tasks[t]? = some g.tasks[t] := List.getElem?_eq_getElem hlt
  generalize g.tasks[t] = x at hx
  obtain ⟨q1, q2, q3, q4⟩ := h.task t p x hp hx
  obtain ⟨y', hy', r1, r2, r3, r4⟩ := h3 t x hx q4
  rw [hy] at hy'
  cases hy'
  refine ⟨?_, ?_, fun op hop => q3 op (r3 op hop), r4 q4⟩
  · intro hd
    obtain ⟨a, b⟩ := r1 hd
    rw [q1 a, b, h1, callsBy_append, List.append_assoc]
  · rw [h1, callsBy_append]
    cases hd : isDead y with
    | false =>
      obtain ⟨a, b⟩ := r1 hd
      exact ⟨callsOf (leftOf y), by rw [q1 a, b, List.append_assoc]⟩
    | true =>
      have hpre := r2 hd
      cases hdx : isDead x with
      | false =>
        obtain ⟨k, hk⟩ := hpre
        exact ⟨k, by rw [q1 hdx, ← hk, List.append_assoc]⟩
      | true =>
        have : leftOf x = [] := by cases x <;> first | rfl | cases hdx
        rw [this] at hpre
        have h0 : callsBy t l = [] := List.prefix_nil.1 hpre
        rw [h0, List.append_nil]
        exact q2

theorem start_tracks (out : MmOut) (cur : MmIn) (progs : List (List MmOp)) : MadeBy progs (MmSys.start out cur progs) := by
  refine ⟨by simp [MmSys.start], by simp [MmSys.start], ?_⟩
  intro t p x hp hx
  simp only [MmSys.start] at hx
  obtain ⟨p', hp', rfl⟩ := getElem?_map_of _ _ _ _ hx
  rw [hp] at hp'
  cases hp'
  exact ⟨fun _ => rfl, List.nil_prefix, fun op h => h, trivial⟩

theorem start_inv (c : MmCfg) (out : MmOut) (cur : MmIn) (progs : List (List MmOp)) (hb : out.busy = false) :
    Inv c (fun F => ⟨.mid, out, cur, cur, F⟩) 0 (MmSys.start out cur progs) := by
  refine .free [] .mid (fun F => rfl) rfl rfl hb ?_ ?_ rfl
  · intro u x hx
    obtain ⟨p', hp', rfl⟩ := getElem?_map_of _ _ _ _ hx
    exact ⟨rfl, rfl, rfl⟩
  · intro u v x y hx hy h1 h2
    obtain ⟨p', hp', rfl⟩ := getElem?_map_of _ _ _ _ hx
    cases h1

/-- calls take so many edges at most, with a memory of the given latency -/
def costOf (lat : Nat) : List MmOp → Nat
  | [] => 0
  | .write _ _ :: r => 2 + costOf lat r
  | .read _ :: r => 2 + lat + costOf lat r
  | .pause _ :: r => costOf lat r

/-- every task that is not done was in a pause at the edges nobody used -/
def Paused (progs : List (List MmOp)) (I : Nat) (g : MmSys) : Prop :=
  ∀ (t : Nat) p x, progs[t]? = some p → g.tasks[t]? = some x → isDone x = true ∨ isDead x = true ∨ I + pausesLeft x ≤ idleEdges p

theorem step_paused (c : MmCfg) (s0 : List MmIn → Sim MmIn MmOut) (I : Nat) (progs : List (List MmOp)) (g g' : MmSys) (e : TEv) (hi : Inv c s0 I g)
    (ht : MadeBy progs g) (h : Paused progs I g) (hs : g.step c e = some g') : Paused progs (I + idleAt g e) g' := by
  obtain ⟨l, h1, h0, h2, h3⟩ := step_rels c g g' e hs
  intro t p y hp hy
  have hlt : t < g.tasks.length := by rw [← h2]; exact (List.getElem?_eq_some_iff.1 hy).1
  have hx : g.tasks[t]? = some g.tasks[t] := List.getElem?_eq_getElem hlt
  generalize g.tasks[t] = x at hx
  obtain ⟨y', hy', r⟩ := h3 t x hx (ht.task t p x hp hx).2.2.2
  rw [hy] at hy'
  cases hy'
  rcases h t p x hp hx with hd | hd | hd
  · exact .inl (r.done hd)
  · exact .inr (.inl (r.dies hd))
  · have hless := r.less
    by_cases hI : idleAt g e = 0
    · exact .inr (.inr (by omega))
    · cases e with
      | run t => exact absurd rfl hI
      | ro => exact absurd rfl hI
      | next => exact absurd rfl hI
      | edge i =>
        simp only [MmSys.step] at hs
        split at hs
        · cases hs
        · rename_i hc
          cases hs
          simp only [Bool.not_eq_true, Bool.or_eq_false_iff] at hc
          have hrun := not_any hc.1.1 t x hx
          have hbusy : g.out.busy = false := by
            cases hb : g.out.busy with
            | false => rfl
            | true => simp [idleAt, hb] at hI
          have hI1 : idleAt g (.edge i) = 1 := by simp [idleAt, hbusy]
          obtain ⟨x', hx', rfl⟩ := getElem?_map_of _ _ _ _ hy
          rw [hx] at hx'
          cases hx'
          cases hi with
          | free seq ph huse hord hrd hbusy htasks hwoken hI =>
            obtain ⟨q1, q2, q3⟩ := htasks t x hx
            cases x with
            | idle ops =>
              cases ops with
              | nil => exact .inl rfl
              | cons op ops => cases hrun
            | paused n ops =>
              refine .inr (.inr ?_)
              cases n <;> simp only [TaskSt.edge, pausesLeft, leftOf] at hd ⊢ <;> omega
            | woken op ops => cases hrun
            | waiting op ops => cases q2
            | dead e => cases q3
            | _ => cases q1
          | held t op done x seq tr0 tr1 s1 huse hcall htr hord hdone hrd hop hbusy' hev hx hholds hfree hothers hI => rw [hbusy'] at hbusy; cases hbusy
          | dead t op done seq tr0 tr1 tl s1 e huse hcall htr htl hord hdone hop hbusy' hev htasks hI => rw [hbusy'] at hbusy; cases hbusy

theorem steps_inv (c : MmCfg) (s0 : List MmIn → Sim MmIn MmOut) (progs : List (List MmOp)) (hops : ∀ p ∈ progs, ∀ op ∈ p, mmRefuses c op = none)
    (evs : List TEv) : ∀ I g g', Inv c s0 I g → MadeBy progs g → Paused progs I g → Calm c g evs → g.steps c evs = some g' →
    ∃ J, Inv c s0 J g' ∧ MadeBy progs g' ∧ Paused progs J g' := by
  induction evs with
  | nil =>
    intro I g g' h1 h2 h3 _ hs
    cases hs
    exact ⟨I, h1, h2, h3⟩
  | cons e es ih =>
    intro I g g' h1 h2 h3 hc hs
    rw [MmSys.steps] at hs
    cases hg : g.step c e with
    | none => rw [hg] at hs; cases hs
    | some g1 =>
      rw [hg] at hs
      have hprog : ∀ (u : Nat) x, g.tasks[u]? = some x → ∃ p, progs[u]? = some p := by
        intro u x hx
        have hlt : u < progs.length := by rw [← h2.length]; exact (List.getElem?_eq_some_iff.1 hx).1
        exact ⟨_, List.getElem?_eq_getElem hlt⟩
      refine ih (I + idleAt g e) g1 g' (step_inv c s0 I g g1 e h1 hg hc.1 ?_ ?_) (step_tracks c progs g g1 e h2 hg)
        (step_paused c s0 I progs g g1 e h1 h2 h3 hg) (hc.2 g1 hg) hs
      · intro u x hx op hop
        obtain ⟨p, hp⟩ := hprog u x hx
        exact hops p (List.mem_of_getElem? hp) op ((h2.task u p x hp hx).2.2.1 op hop)
      · intro u op ops hx
        obtain ⟨p, hp⟩ := hprog u _ hx
        exact (h2.task u p _ hp hx).2.2.2

theorem start_paused (out : MmOut) (cur : MmIn) (progs : List (List MmOp)) : Paused progs 0 (MmSys.start out cur progs) := by
  intro t p x hp hx
  simp only [MmSys.start] at hx
  obtain ⟨p', hp', rfl⟩ := getElem?_map_of _ _ _ _ hx
  rw [hp] at hp'
  cases hp'
  exact .inr (.inr (by simp [pausesLeft, leftOf]))

/-! ### The end of a cycle -/

/-- at the end of a cycle: the steps `ops` of one task have the same effect. `ops` may end with a pause of one edge that has not come yet. -/
structure OneTask (c : MmCfg) (out : MmOut) (cur : MmIn) (I : Nat) (g : MmSys) (ops : List MmOp) : Prop where
  calls : callsOf ops = g.order.map Prod.snd
  idle : idleEdges ops = I ∨ (idleEdges ops = I + 1 ∧ ∀ x ∈ g.tasks, isDone x = true ∨ 1 ≤ pausesLeft x)
  notOk : (mmUse c ops ⟨.mid, out, cur, cur, g.ins⟩).2.2.isOk = false
  reads : (mmUse c ops ⟨.mid, out, cur, cur, g.ins⟩).1 = g.reads.map Prod.snd
  driven : ∀ n, drivenIn (mmUse c ops ⟨.mid, out, cur, cur, g.ins⟩).2 n = drivenIn (pinsOf g) n
  alive : (∃ e s', (mmUse c ops ⟨.mid, out, cur, cur, g.ins⟩).2.2 = .err e s') ∨
    (g.trace = (mmUse c ops ⟨.mid, out, cur, cur, g.ins⟩).2.1 ∧ (∃ l, g.reads.map Prod.fst ++ l = readers g.order) ∧ (∀ x ∈ g.tasks, isDead x = false) ∧
      ((∀ x ∈ g.tasks, isDone x = true) → g.reads.map Prod.fst = readers g.order))

theorem settled_edge {g : MmSys} (h : Settled g) (t : Nat) (x : TaskSt) (hx : g.tasks[t]? = some x) (hh : holds x = true) : ∃ p ops, x = .atEdge p ops := by
  obtain ⟨h1, h2, h3⟩ := h x (List.mem_of_getElem? hx)
  cases x with
  | atEdge p ops => exact ⟨p, ops, rfl⟩
  | ready p ops => cases h1
  | atRO test p ops => cases h2
  | atNext p ops => cases h3
  | _ => cases hh

theorem norm_eq_blocked {α : Type} {r : Res MmIn MmOut α} {t : List (MmOut × MmIn)} {s : Sim MmIn MmOut} (h : norm r = norm (t, .blocked s)) :
    ∃ s', r = (t, .blocked s') ∧ s'.out = s.out := by
  obtain ⟨t', e⟩ := r
  simp only [norm, Prod.mk.injEq, normEnd] at h
  obtain ⟨rfl, h⟩ := h
  cases e with
  | ok a s' => simp [normEnd] at h
  | err e s' => simp [normEnd] at h
  | blocked s' =>
    refine ⟨s', rfl, ?_⟩
    simp only [normEnd, End.blocked.injEq] at h
    have := congrArg Sim.out h
    simpa using this

theorem norm_eq_err {α : Type} {r : Res MmIn MmOut α} {t : List (MmOut × MmIn)} {e : PyErr} {s : Sim MmIn MmOut} (h : norm r = (t, .err e s)) :
    ∃ s', r = (t, .err e s') ∧ s'.out = s.out := by
  obtain ⟨t', e'⟩ := r
  simp only [norm, Prod.mk.injEq] at h
  obtain ⟨rfl, h⟩ := h
  cases e' with
  | ok a s' => simp [normEnd] at h
  | blocked s' => simp [normEnd] at h
  | err e' s' =>
    simp only [normEnd, End.err.injEq] at h
    obtain ⟨rfl, rfl⟩ := h
    exact ⟨s', rfl, rfl⟩

theorem callsOf_append (a b : List MmOp) : callsOf (a ++ b) = callsOf a ++ callsOf b := by
  unfold callsOf; rw [List.filter_append]

theorem inv_final (c : MmCfg) (out : MmOut) (cur : MmIn) (I : Nat) (g : MmSys)
    (h : Inv c (fun F => ⟨.mid, out, cur, cur, F⟩) I g) (hs : Settled g) : ∃ ops, OneTask c out cur I g ops := by
  cases h with
  | free seq ph huse hord hrd hbusy htasks hwoken hI =>
    have h0 := huse []
    rw [List.append_nil] at h0
    have h1 := mmUse_append c seq [.pause 1] _ _ _ _ h0
    have h2 : mmUse c [.pause 1] ⟨ph, g.out, g.prev, g.cur, []⟩ = ([], [], .blocked ⟨ph, g.out, g.prev, g.cur, []⟩) := rfl
    rw [h2] at h1
    simp only [List.append_nil] at h1
    refine ⟨seq ++ [.pause 1], ?_, .inr ⟨?_, ?_⟩, ?_, ?_, ?_, ?_⟩
    · rw [callsOf_append, hord]; simp [callsOf]
    · rw [idleEdges_append, hI]; rfl
    · intro x hx
      obtain ⟨h1, h2, h3⟩ := hs x hx
      obtain ⟨u, hu⟩ := List.getElem?_of_mem hx
      obtain ⟨q1, q2, q3⟩ := htasks u x hu
      cases x with
      | idle ops =>
        cases ops with
        | nil => exact .inl rfl
        | cons op ops => cases h1
      | paused n ops => exact .inr (by simp only [pausesLeft]; omega)
      | woken op ops => cases h1
      | waiting op ops => cases q2
      | dead e => cases q3
      | _ => cases q1
    · rw [h1]; rfl
    · rw [h1]
    · intro n; rw [h1]; rfl
    · rw [h1]; exact .inr ⟨rfl, ⟨[], by rw [List.append_nil, hrd]⟩, fun x hx => by
      obtain ⟨u, hu⟩ := List.getElem?_of_mem hx
      exact (htasks u x hu).2.2, fun _ => hrd⟩
  | held t op done x seq tr0 tr1 s1 huse hcall htr hord hdone hrd hop hbusy hev hx hholds hfree hothers hI =>
    obtain ⟨p, ops, rfl⟩ := settled_edge hs t x hx hholds
    have h0 := huse []
    rw [List.append_nil] at h0
    have h1 := mmUse_append c seq [op] _ _ _ _ h0
    have h2 : norm (mmStep c op (s1 [])) = norm (tr1, .blocked (nowS g [])) := by
      rw [mmStep_call c op hop, hcall []]
      have : finish (remM (.atEdge p ops)) (nowS g []) = ([], .blocked (nowS g [])) := by
        show finish (awaitEdge >>= fun _ => p.toM) _ = _
        unfold finish
        rw [bind_assoc_run, bind_awaitEdge_nil _ _ rfl]
      rw [this]
      simp [prepend]
    obtain ⟨s', h3, h4⟩ := norm_eq_blocked h2
    have h5 : mmUse c [op] (s1 []) = ([], tr1, .blocked s') := by rw [mmUse, h3]
    rw [h5] at h1
    simp only [List.append_nil, ← htr] at h1
    refine ⟨seq ++ [op], ?_, .inl ?_, ?_, ?_, ?_, ?_⟩
    · rw [callsOf_append, ← hdone, hord, List.map_append, callsOf_call op [] hop]; rfl
    · rw [idleEdges_append, hI]
      cases op with
      | pause n => exact absurd rfl (hop n)
      | read _ => rfl
      | write _ _ => rfl
    · rw [h1]; rfl
    · rw [h1]
    · intro n
      rw [h1]
      show ((g.trace[n]?).map Prod.fst).getD s'.out = ((g.trace[n]?).map Prod.fst).getD g.out
      rw [h4]; rfl
    · rw [h1]
      refine .inr ⟨rfl, ⟨readers [(t, op)], ?_⟩, ?_, ?_⟩
      · rw [hrd, hord]
        simp [readers, List.filterMap_append]
      · intro y hy
        obtain ⟨u, hu⟩ := List.getElem?_of_mem hy
        by_cases hut : u = t
        · subst hut
          rw [hx] at hu
          cases hu
          rfl
        · exact (hothers u y hut hu).2.2
      · intro hall
        exact absurd (hall _ (List.mem_of_getElem? hx)) (by simp [isDone])
  | dead t op done seq tr0 tr1 tl s1 e huse hcall htr htl hord hdone hop hbusy hev htasks hI =>
    have h0 := huse []
    rw [List.append_nil] at h0
    have h1 := mmUse_append c seq [op] _ _ _ _ h0
    obtain ⟨s2, h2, h2'⟩ := hcall []
    rw [← mmStep_call c op hop] at h2
    obtain ⟨s', h3, h4⟩ := norm_eq_err h2
    have h5 : mmUse c [op] (s1 []) = ([], tr1, .err e s') := by rw [mmUse, h3]
    rw [h5] at h1
    simp only [List.append_nil] at h1
    refine ⟨seq ++ [op], ?_, .inl ?_, ?_, ?_, ?_, ?_⟩
    · rw [callsOf_append, ← hdone, hord, List.map_append, callsOf_call op [] hop]; rfl
    · rw [idleEdges_append, hI]
      cases op with
      | pause n => exact absurd rfl (hop n)
      | read _ => rfl
      | write _ _ => rfl
    · rw [h1]; rfl
    · rw [h1]
    · intro n
      rw [h1]
      show (((tr0 ++ tr1)[n]?).map Prod.fst).getD s'.out = ((g.trace[n]?).map Prod.fst).getD g.out
      rw [htr, h4, h2']
      by_cases hn : n < (tr0 ++ tr1).length
      · rw [List.getElem?_append_left hn]
      · rw [List.getElem?_append_right (Nat.le_of_not_lt hn), List.getElem?_eq_none (Nat.le_of_not_lt hn)]
        cases hq : tl[n - (tr0 ++ tr1).length]? with
        | none => rfl
        | some q => simp [htl q (List.mem_of_getElem? hq)]
    · rw [h1]; exact .inl ⟨e, s', rfl⟩

/-! ### Counting -/

theorem edgesFor_split (lat : Nat) (ops : List MmOp) : edgesFor lat ops = idleEdges ops + costOf lat ops := by
  induction ops with
  | nil => rfl
  | cons op ops ih => cases op <;> simp only [edgesFor, idleEdges, costOf] <;> omega

theorem costOf_calls (lat : Nat) (ops : List MmOp) : costOf lat (callsOf ops) = costOf lat ops := by
  induction ops with
  | nil => rfl
  | cons op ops ih =>
    cases op with
    | pause n => exact ih
    | read a => rw [callsOf_call _ _ (by simp), costOf, costOf, ih]
    | write a v => rw [callsOf_call _ _ (by simp), costOf, costOf, ih]

theorem costOf_append (lat : Nat) (a b : List MmOp) : costOf lat (a ++ b) = costOf lat a + costOf lat b := by
  induction a with
  | nil => simp [costOf]
  | cons op a ih => cases op <;> simp only [List.cons_append, costOf] <;> omega

theorem costOf_prefix (lat : Nat) (a b : List MmOp) (h : a <+: b) : costOf lat a ≤ costOf lat b := by
  obtain ⟨k, rfl⟩ := h
  rw [costOf_append]; omega

theorem sum_range_le (l : List Nat) : ∀ (f : Nat → Nat), (∀ (t : Nat) v, l[t]? = some v → f t ≤ v) → ((List.range l.length).map f).sum ≤ l.sum := by
  induction l with
  | nil => intro f h; exact Nat.le_refl _
  | cons v l ih =>
    intro f h
    rw [List.length_cons, List.range_succ_eq_map, List.map_cons, List.map_map, List.sum_cons, List.sum_cons]
    have h1 := h 0 v rfl
    have h2 := ih (f ∘ Nat.succ) (fun t v ht => h (t + 1) v ht)
    omega

theorem sum_range_add (f g : Nat → Nat) (n : Nat) : ((List.range n).map fun t => f t + g t).sum = ((List.range n).map f).sum + ((List.range n).map g).sum := by
  induction n with
  | zero => rfl
  | succ n ih =>
    rw [List.range_succ]
    simp only [List.map_append, List.map_cons, List.map_nil, List.sum_append, List.sum_cons, List.sum_nil]
    omega

theorem sum_range_ite (t k n : Nat) : ((List.range n).map fun u => if u = t then k else 0).sum = if t < n then k else 0 := by
  induction n with
  | zero => rfl
  | succ n ih =>
    rw [List.range_succ]
    simp only [List.map_append, List.map_cons, List.map_nil, List.sum_append, List.sum_cons, List.sum_nil, ih]
    by_cases h1 : n = t
    · subst h1; simp
    · by_cases h2 : t < n
      · simp [h1, h2]; omega
      · have : ¬ t < n + 1 := by omega
        simp [h1, h2, this]

theorem costOf_by (lat n : Nat) (l : List (Nat × MmOp)) (h : ∀ q ∈ l, q.1 < n) :
    costOf lat (l.map Prod.snd) = ((List.range n).map fun t => costOf lat (callsBy t l)).sum := by
  induction l with
  | nil =>
    simp only [callsBy_nil, List.map_nil, costOf]
    clear h
    induction n with
    | zero => rfl
    | succ n ih => rw [List.range_succ]; simp [← ih]
  | cons q l ih =>
    obtain ⟨t, op⟩ := q
    have hc : ∀ u, costOf lat (callsBy u ((t, op) :: l)) = (if u = t then costOf lat [op] else 0) + costOf lat (callsBy u l) := by
      intro u
      rw [show (t, op) :: l = [(t, op)] ++ l from rfl, callsBy_append, costOf_append]
      by_cases hu : u = t
      · subst hu; rw [callsBy_self]; simp
      · rw [callsBy_other u t op hu]; simp [hu, costOf]
    simp only [hc]
    rw [sum_range_add, sum_range_ite, if_pos (h _ (List.mem_cons_self ..)), ← ih (fun q hq => h q (List.mem_cons_of_mem _ hq))]
    rw [List.map_cons, show op :: l.map Prod.snd = [op] ++ l.map Prod.snd from rfl, costOf_append]

theorem edges_sum (lat : Nat) (progs : List (List MmOp)) :
    (progs.map (edgesFor lat)).sum = (progs.map idleEdges).sum + (progs.map (costOf lat)).sum := by
  induction progs with
  | nil => rfl
  | cons p ps ih => simp only [List.map_cons, List.sum_cons, ih, edgesFor_split]; omega

theorem le_sum (l : List Nat) (v : Nat) (h : v ∈ l) : v ≤ l.sum := by
  induction l with
  | nil => cases h
  | cons w l ih =>
    rw [List.sum_cons]
    rcases List.mem_cons.1 h with rfl | h
    · omega
    · have := ih h; omega

theorem tracks_cost (lat : Nat) (progs : List (List MmOp)) (g : MmSys) (h : MadeBy progs g) :
    costOf lat (g.order.map Prod.snd) ≤ (progs.map (costOf lat)).sum := by
  rw [costOf_by lat progs.length g.order h.tags]
  have := sum_range_le (progs.map (costOf lat)) (fun t => costOf lat (callsBy t g.order)) ?_
  · rwa [List.length_map] at this
  · intro t v hv
    obtain ⟨p, hp, rfl⟩ := getElem?_map_of _ _ _ _ hv
    have hlt : t < g.tasks.length := by rw [h.length]; exact (List.getElem?_eq_some_iff.1 hp).1
    have := (h.task t p _ hp (List.getElem?_eq_getElem hlt)).2.1
    rw [← costOf_calls lat p]
    exact costOf_prefix _ _ _ this

/-! ### Reads with their tasks -/

theorem readsOf_calls (w : Nat) (ops : List MmOp) : ∀ mem, readsOf w mem ops = readsOf w mem (callsOf ops) := by
  induction ops with
  | nil => intro mem; rfl
  | cons op ops ih =>
    intro mem
    cases op with
    | pause n => exact ih mem
    | read a => rw [callsOf_call _ _ (by simp), readsOf, readsOf, ih]
    | write a v => rw [callsOf_call _ _ (by simp), readsOf, readsOf, ih]

theorem readsBy_fst (w : Nat) (l : List (Nat × MmOp)) : ∀ mem, (readsBy w mem l).map Prod.fst = readers l := by
  induction l with
  | nil => intro mem; rfl
  | cons q l ih =>
    intro mem
    obtain ⟨t, op⟩ := q
    cases op with
    | pause n => rw [readsBy, ih]; rfl
    | write a v => rw [readsBy, ih]; rfl
    | read a => rw [readsBy, List.map_cons, ih]; rfl

theorem readsBy_snd (w : Nat) (l : List (Nat × MmOp)) : ∀ mem, (readsBy w mem l).map Prod.snd = readsOf w mem (l.map Prod.snd) := by
  induction l with
  | nil => intro mem; rfl
  | cons q l ih =>
    intro mem
    obtain ⟨t, op⟩ := q
    cases op with
    | pause n => rw [readsBy, ih]; rfl
    | write a v => rw [readsBy, ih]; rfl
    | read a => rw [readsBy, List.map_cons, ih]; rfl

theorem prefix_of_both {α β : Type} (a b : List (α × β)) (h1 : ∃ l, a.map Prod.fst ++ l = b.map Prod.fst) (h2 : ∃ l, a.map Prod.snd ++ l = b.map Prod.snd) :
    ∃ l, a ++ l = b := by
  induction a generalizing b with
  | nil => exact ⟨b, rfl⟩
  | cons q a ih =>
    cases b with
    | nil => obtain ⟨l, hl⟩ := h1; simp at hl
    | cons r b =>
      obtain ⟨l, hl⟩ := h1
      obtain ⟨k, hk⟩ := h2
      simp only [List.map_cons, List.cons_append, List.cons.injEq] at hl hk
      obtain ⟨m, hm⟩ := ih b ⟨l, hl.2⟩ ⟨k, hk.2⟩
      exact ⟨m, by rw [List.cons_append, hm, Prod.ext hl.1 hk.1]⟩

theorem opOk_refuses (c : MmCfg) (op : MmOp) (h : OpOk c op) : mmRefuses c op = none := by
  cases op with
  | pause n => rfl
  | read a => simp [mmRefuses, h.1]
  | write a v => simp [mmRefuses, h.1]

theorem mem_callsOf (op : MmOp) (ops : List MmOp) (h : op ∈ callsOf ops) : op ∈ ops := (List.mem_filter.1 h).1

theorem mem_or_pause (op : MmOp) (ops : List MmOp) (h : op ∈ ops) : op ∈ callsOf ops ∨ ∃ n, op = .pause n := by
  cases op with
  | pause n => exact .inr ⟨n, rfl⟩
  | read a => exact .inl (List.mem_filter.2 ⟨h, rfl⟩)
  | write a v => exact .inl (List.mem_filter.2 ⟨h, rfl⟩)

/-- a call of a task that got the lock is in its program -/
theorem tracks_mem (progs : List (List MmOp)) (g : MmSys) (h : MadeBy progs g) (op : MmOp) (hop : op ∈ g.order.map Prod.snd) : ∃ p ∈ progs, op ∈ p := by
  obtain ⟨q, hq, rfl⟩ := List.mem_map.1 hop
  have hlt := h.tags q hq
  have hp : progs[q.1]? = some progs[q.1] := List.getElem?_eq_getElem hlt
  have hlt' : q.1 < g.tasks.length := by rw [h.length]; exact hlt
  obtain ⟨k, hk⟩ := (h.task q.1 _ _ hp (List.getElem?_eq_getElem hlt')).2.1
  refine ⟨_, List.getElem_mem hlt, mem_callsOf _ _ ?_⟩
  rw [← hk]
  refine List.mem_append_left _ (List.mem_map.2 ⟨q, List.mem_filter.2 ⟨hq, by simp⟩, rfl⟩)

end CocotbBus
