import Verif.Props.AxiUse
import Verif.Spec.AxiPar

/-! # Reads and writes of an AXI4 master at the same time -/

namespace CocotbBus
open Spec Coro

/-! ### When a write is carried out -/

/-- a write burst, or the beginning of one: the memory changes at one edge -/
theorem run_switch (c : AxCfg) (E : Nat → Nat → Nat) (kr : Nat) (hE : E kr 0 = 0) (p : AddrReq) (ws : List WReq) (mem : Nat → Byte) (hlen : (p.decode c.dataBytes).2.2.2 = ws.length)
    (t : List (AxAll × AxIn)) :
    ∀ (oa : Option AddrReq) (ws0 : List WReq) (b : Option Nat), oa.toList ++ (awStream c).taken (awOf t) <+: [p] → ws0 ++ (wStream c).taken (wOf t) <+: ws →
      (oa = none ∨ ws0.length < ws.length) → (∀ q ∈ t, (arStream c).xfer (q.1.2, q.2) = false) →
      ∃ d, 0 < d ∧ ∀ n ≤ t.length, (AxMem.run c ⟨mem, oa, ws0, none, b, kr, E⟩ (t.take n)).mem = if n < d then mem else burstMem c p ws mem := by
  induction t with
  | nil =>
    intro oa ws0 b _ _ _ _
    refine ⟨1, by omega, ?_⟩
    intro n hn
    have : n = 0 := by simpa using hn
    subst this
    rfl
  | cons q t ih =>
    intro oa ws0 b h1 h2 h3 har
    have har0 : (arStream c).xfer (q.1.2, q.2) = false := har q (by simp)
    have har' : ∀ q ∈ t, (arStream c).xfer (q.1.2, q.2) = false := fun q hq => har q (by simp [hq])
    have e1 : awOf (q :: t) = (q.1.1.1, q.2) :: awOf t := rfl
    have e2 : wOf (q :: t) = (q.1.1.2, q.2) :: wOf t := rfl
    rw [e1, taken_cons] at h1
    rw [e2, taken_cons] at h2
    obtain ⟨oa', hoa', h1'⟩ : ∃ oa', (if (awStream c).xfer (q.1.1.1, q.2) then some ((awStream c).payload q.1.1.1) else oa) = oa' ∧
        oa'.toList ++ (awStream c).taken (awOf t) <+: [p] := by
      refine ⟨_, rfl, ?_⟩
      by_cases hx : (awStream c).xfer (q.1.1.1, q.2) = true
      · rw [if_pos hx] at h1 ⊢
        cases oa with
        | none => simpa using h1
        | some p' => exfalso; have := h1.length_le; simp at this
      · rw [if_neg hx] at h1 ⊢
        simpa using h1
    obtain ⟨ws', hws', h2'⟩ : ∃ ws', (if (wStream c).xfer (q.1.1.2, q.2) then ws0 ++ [(wStream c).payload q.1.1.2] else ws0) = ws' ∧
        ws' ++ (wStream c).taken (wOf t) <+: ws := by
      refine ⟨_, rfl, ?_⟩
      by_cases hx : (wStream c).xfer (q.1.1.2, q.2) = true
      · rw [if_pos hx] at h2 ⊢
        simpa using h2
      · rw [if_neg hx] at h2 ⊢
        simpa using h2
    have hst : AxMem.step c ⟨mem, oa, ws0, none, b, kr, E⟩ q = AxMem.commit c ⟨mem, oa', ws', none, if bFire q.2 then none else b, kr, E⟩ := by
      simp only [AxMem.step, hoa', hws', har0, Bool.false_eq_true, if_false]
    -- it is enough to look at the rest
    suffices h : ∃ d, ∀ n ≤ t.length, (AxMem.run c (AxMem.step c ⟨mem, oa, ws0, none, b, kr, E⟩ q) (t.take n)).mem = if n < d then mem else burstMem c p ws mem by
      obtain ⟨d, h⟩ := h
      refine ⟨d + 1, by omega, ?_⟩
      intro n hn
      cases n with
      | zero => rfl
      | succ n =>
        rw [List.take_succ_cons]
        show (AxMem.run c (AxMem.step c ⟨mem, oa, ws0, none, b, kr, E⟩ q) (t.take n)).mem = _
        rw [h n (by simpa using hn)]
        by_cases hd : n < d
        · rw [if_pos hd, if_pos (by omega)]
        · rw [if_neg hd, if_neg (by omega)]
    rw [hst]
    generalize (if bFire q.2 then none else b) = b1
    cases oa' with
    | none =>
      obtain ⟨d, _, i1⟩ := ih none ws' b1 h1' h2' (.inl rfl) har'
      exact ⟨d, i1⟩
    | some p' =>
      have hp : p' = p ∧ (awStream c).taken (awOf t) = [] := by
        have hl := h1'.length_le
        simp at hl
        rw [hl] at h1'
        have := h1'.eq_of_length (by simp)
        simp at this
        exact ⟨this, hl⟩
      obtain ⟨rfl, haw⟩ := hp
      by_cases hc : ws'.length = ws.length
      · have hw : (wStream c).taken (wOf t) = [] := by
          have := h2'.length_le
          rw [List.length_append] at this
          exact List.eq_nil_of_length_eq_zero (by omega)
        have hws : ws' = ws := by rw [hw, List.append_nil] at h2'; exact h2'.eq_of_length hc
        subst hws
        have hcm : AxMem.commit c ⟨mem, some p', ws', none, b1, kr, E⟩ = ⟨burstMem c p' ws' mem, none, [], none, some (E kr 0), kr + 1, E⟩ := by
          simp [AxMem.commit, hlen, burstMem, hE]
        rw [hcm]
        have hquiet : ∀ x ∈ t, QuietAt c x := by
          intro x hx
          exact ⟨taken_nil_quiet _ _ haw _ (List.mem_map_of_mem hx), taken_nil_quiet _ _ hw _ (List.mem_map_of_mem hx), har' x hx⟩
        refine ⟨0, ?_⟩
        intro n _
        obtain ⟨b', i1, _⟩ := run_rest c E (kr + 1) (burstMem c p' ws' mem) (t.take n) (some (E kr 0)) (fun x hx => hquiet x (List.mem_of_mem_take hx))
        rw [i1, if_neg (by omega)]
      · have hcm : AxMem.commit c ⟨mem, some p', ws', none, b1, kr, E⟩ = ⟨mem, some p', ws', none, b1, kr, E⟩ := by
          simp [AxMem.commit, hlen, hc]
        rw [hcm]
        have hlt : ws'.length < ws.length := by
          have := h2'.length_le
          rw [List.length_append] at this
          omega
        obtain ⟨d, _, i1⟩ := ih (some p') ws' b1 h1' h2' (.inr hlt) har'
        exact ⟨d, i1⟩

theorem once_prefix {I O P : Type} {V : Stream I O P} {p : P} {n : Nat} {t : List (O × I)} {acc : Bool} (h : V.Once p n t acc) : V.taken t <+: [p] := by
  cases acc with
  | true => rw [Stream.Once.taken_eq h]; exact List.prefix_refl _
  | false =>
    obtain ⟨t1, t2, h1, h2, h3, h4⟩ := h
    have := h3 rfl
    subst this
    rw [List.append_nil] at h1
    subst h1
    have hq : ∀ x ∈ t, V.xfer x = false := by
      obtain ⟨idle, held, g1, g2, g3⟩ := h2
      simp only [Bool.false_eq_true, if_false] at g3
      intro x hx
      have : x ∈ idle ∨ x ∈ held := by
        rcases g3 with ⟨rfl, _⟩ | ⟨rfl, _⟩
        · exact .inl hx
        · exact List.mem_append.1 hx
      rcases this with h | h
      · simp [Stream.xfer, g1 x h]
      · simp [Stream.xfer, (g2 x h).2.2]
    rw [taken_none V t hq]
    exact List.nil_prefix

theorem burst_prefix {I O P : Type} {V : Stream I O P} {l : List P} {ns : List Nat} {t : List (O × I)} {b : Bool} (h : V.Burst l ns t b) : V.taken t <+: l := by
  cases b with
  | true => rw [Stream.Burst.taken_eq h]; exact List.prefix_refl _
  | false =>
    obtain ⟨t1, t2, h1, h2, _, h3, h4⟩ := h
    simp only [Bool.false_eq_true, if_false] at h4
    obtain ⟨h4, k, _, h5, _⟩ := h4
    subst h4
    rw [List.append_nil] at h1
    subst h1
    rw [h5]
    exact List.take_prefix _ _

/-- when a write is carried out -/
theorem axWrite_switch (c : AxCfg) (hc : Standard c) (a : Nat) (ha : a < 2 ^ c.addrW) (value : List Nat) (size : Option Int) (burst : AxiBurst)
    (be : List (Option Nat)) (hbe : be ≠ []) (al dl : Nat) (hd : dl = 0 ∨ value.length = 1) (sync : Bool) (sz : Nat) (hl : Legal c a value.length size burst sz)
    (hwrap : WrapOk c sz burst a value.length) (hlite : c.full = false → sz = c.dataBytes ∧ burst = .incr ∧ value.length = 1)
    (s : Sim AxIn (AddrOut × WOut)) (hs : WriteReady sync s) (hg : ∀ i ∈ s.cur :: s.rest, GoodResp i) (o : AddrOut) (ho : o.valid = .zero)
    (E : Nat → Nat → Nat) (kr : Nat) (hE : E kr 0 = 0) (mem : Nat → Byte) :
    let r := axiWrite c a value size burst be al dl sync s
    let t := r.1.map (fun q => ((q.1, o), q.2))
    (∃ d, 0 < d ∧ ∀ n ≤ t.length, (AxMem.run c (AxMem.idle E kr mem) (t.take n)).mem = if n < d then mem else writeTo sz burst a value be mem) ∧
    (result r ≠ none → t ≠ []) := by
  intro r t
  obtain ⟨h1, h2, h3, k, m, hk, hm, hW⟩ := Legal.facts hl hc ha
  change 0 < value.length at h3
  obtain ⟨beats, b1, b2, b3⟩ := axiWriteBeats_ok sz m a h2 hm burst value be hbe
  rw [← hW] at b1 b3
  have hne : beats ≠ [] := by
    intro h
    rw [h] at b2
    simp at b2
    omega
  have hspec := axiWriteRun_spec c a value sz burst be al dl sync h1 h2 beats b1 hne b3 (by rw [b2]; exact hd) s hs.1 hs.2.1 hs.2.2 hg
  simp only at hspec
  have hr : r = axiWriteRun c a value sz burst be al dl sync s := by
    show axiWrite c a value size burst be al dl sync s = _
    rw [axiWrite_legal c hc a value size burst be al dl sync sz hl]
  rw [← hr] at hspec
  obtain ⟨tc, tb, aw, w, e1, e2, e3, e4, e5⟩ := hspec
  have hdec := decode_addrReq c a value.length sz k burst h1 hk h3 hlite
  have hmem : burstMem c (addrReq c a value.length sz burst) (wReqs c beats) mem = writeTo sz burst a value be mem := by
    unfold burstMem
    rw [hdec, wReqs_decode c beats b3]
    exact beats_write c sz m a h2 hm hW burst value be hbe hwrap beats b1 mem
  rw [← hmem]
  refine ⟨?_, ?_⟩
  · refine run_switch c E kr hE (addrReq c a value.length sz burst) (wReqs c beats) mem (by rw [hdec, wReqs_length, b2]) t none [] none ?_ ?_ (.inl rfl) ?_
    · have := once_prefix e2
      simpa [t, awOf, awTrace, List.map_map, Function.comp_def] using this
    · have := burst_prefix e3
      simpa [t, wOf, wTrace, List.map_map, Function.comp_def] using this
    · intro q hq
      obtain ⟨x, _, rfl⟩ := List.mem_map.1 hq
      simp [Stream.xfer, arStream, ho]
  · intro hres ht
    have hr1 : r.1 = [] := by simpa [t] using ht
    by_cases hboth : (aw && w) = true
    · obtain ⟨_, _, q, hq, _⟩ := e5 hboth
      rw [e1] at hr1
      have : tc = [] := (List.append_eq_nil_iff.1 hr1).1
      rw [this] at hq
      cases hq
    · exact hres (e4 (by simpa using hboth)).2

/-- what a step of the writing task does to its signals and to the memory -/
def StepSwitch (c : AxCfg) (op : AxOp) (s : Sim AxIn AxAll) (E : Nat → Nat → Nat) (kr : Nat) (mem : Nat → Byte) (r : Res AxIn AxAll (List LogicArray)) : Prop :=
  (∃ d, 0 < d ∧ ∀ n ≤ r.1.length, (AxMem.run c (AxMem.idle E kr mem) (r.1.take n)).mem = if n < d then mem else axAfter c op mem) ∧
  (∀ q ∈ r.1, q.1.2 = s.out.2) ∧ r.2.sim.out.2 = s.out.2 ∧ (result r ≠ none → r.1 ≠ [])

theorem axStep_switch (c : AxCfg) (hc : Standard c) (op : AxOp) (hop : AxOpOk c op) (hw : WriteStep op) (s : Sim AxIn AxAll) (hs : AxReady s)
    (hg : ∀ i ∈ s.cur :: s.rest, GoodBeat c.dataBytes i ∧ GoodResp i) (E : Nat → Nat → Nat) (kr : Nat) (hE : E kr 0 = 0) (mem : Nat → Byte) :
    StepSwitch c op s E kr mem (axStep c op s) := by
  cases op with
  | write a v size burst be al dl sync =>
    obtain ⟨o1, o2, o3, o4, o5, o6⟩ := hop
    have h := axWrite_switch c hc a o2 v size burst be o3 al dl o4 sync _ o5 o6 (by rw [o1]; intro h; cases h) ⟨s.phase, s.out.1, s.prev, s.cur, s.rest⟩
      ⟨.inr hs.1, hs.2.1, hs.2.2.1⟩ (fun i hi => (hg i hi).2) s.out.2 hs.2.2.2 E kr hE mem
    have e : axStep c (.write a v size burst be al dl sync) s = Res.andThen (onWrite (axiWrite c a v size burst be al dl sync) s) (fun _ => pure []) := rfl
    rw [e]
    unfold onWrite
    simp only at h ⊢
    generalize axiWrite c a v size burst be al dl sync ⟨s.phase, s.out.1, s.prev, s.cur, s.rest⟩ = x at h ⊢
    obtain ⟨t, e⟩ := x
    have hq : ∀ q ∈ t.map (fun q => ((q.1, s.out.2), q.2)), q.1.2 = s.out.2 := by
      intro q hq
      obtain ⟨x, _, rfl⟩ := List.mem_map.1 hq
      rfl
    cases e with
    | ok u s' =>
      show StepSwitch c _ s E kr mem (t.map (fun q => ((q.1, s.out.2), q.2)) ++ [], _)
      rw [List.append_nil]
      exact ⟨h.1, hq, rfl, fun _ => h.2 (by simp [result])⟩
    | err e s' => exact ⟨h.1, hq, rfl, fun _ => h.2 (by simp [result])⟩
    | blocked s' => exact ⟨h.1, hq, rfl, fun h => absurd rfl h⟩
  | liteWrite a v be al dl sync =>
    obtain ⟨o1, o2⟩ := hop
    have hl : Legal c a ([v] : List Nat).length none .incr c.dataBytes := legal_single c hc a
    have h := axWrite_switch c hc a o2 [v] none .incr [be] (by simp) al dl (.inr rfl) sync _ hl (fun h => by cases h) (fun _ => ⟨rfl, rfl, rfl⟩) ⟨s.phase, s.out.1, s.prev, s.cur, s.rest⟩
      ⟨.inr hs.1, hs.2.1, hs.2.2.1⟩ (fun i hi => (hg i hi).2) s.out.2 hs.2.2.2 E kr hE mem
    have e : axStep c (.liteWrite a v be al dl sync) s = Res.andThen (onWrite (liteWrite c a (.inl v) be al dl sync) s) (fun _ => pure []) := rfl
    rw [e]
    unfold onWrite
    have e2 : ∀ u, liteWrite c a (.inl v) be al dl sync u = Res.andThen (axiWrite c a [v] none .incr [be] al dl sync u) (fun _ => ofExcept (createBinaryInt 0 2 >>= fun v => .ok v.bits)) := fun _ => rfl
    simp only [e2] at h ⊢
    generalize axiWrite c a [v] none .incr [be] al dl sync ⟨s.phase, s.out.1, s.prev, s.cur, s.rest⟩ = x at h ⊢
    obtain ⟨t, e⟩ := x
    have hq : ∀ q ∈ t.map (fun q => ((q.1, s.out.2), q.2)), q.1.2 = s.out.2 := by
      intro q hq
      obtain ⟨x, _, rfl⟩ := List.mem_map.1 hq
      rfl
    cases e with
    | ok u s' =>
      show StepSwitch c _ s E kr mem (List.map (fun q => ((q.1, s.out.2), q.2)) (t ++ []) ++ [], _)
      rw [List.append_nil, List.append_nil]
      exact ⟨h.1, hq, rfl, fun _ => h.2 (by simp [result])⟩
    | err e s' => exact ⟨h.1, hq, rfl, fun _ => h.2 (by simp [result])⟩
    | blocked s' => exact ⟨h.1, hq, rfl, fun h => absurd rfl h⟩
  | read a len size burst sync => exact hw.elim
  | liteRead a sync => exact hw.elim
  | pause n =>
    have hn : 0 < n := hw
    have hrun : axStep c (.pause n) s = Res.andThen ((edges n : M AxIn AxAll Unit) s) (fun _ => pure []) := rfl
    rw [edges_run] at hrun
    have h1 : (axStep c (.pause n) s).1 = (sampled n s).map (fun i => (s.out, i)) := by
      rw [hrun]
      by_cases hle : n ≤ s.rest.length
      · rw [if_pos hle]; exact List.append_nil _
      · rw [if_neg hle]; rfl
    have h2 : (axStep c (.pause n) s).2.sim.out = s.out := by
      rw [hrun]
      by_cases hle : n ≤ s.rest.length
      · rw [if_pos hle]; exact advance_out n s
      · rw [if_neg hle]; exact advance_out n s
    have hq : ∀ q ∈ (axStep c (.pause n) s).1, QuietAt c q ∧ q.1.2 = s.out.2 := by
      intro q hq
      rw [h1] at hq
      obtain ⟨x, _, rfl⟩ := List.mem_map.1 hq
      refine ⟨⟨?_, ?_, ?_⟩, rfl⟩
      · simp [Stream.xfer, awStream, hs.2.1]
      · simp [Stream.xfer, wStream, hs.2.2.1]
      · simp [Stream.xfer, arStream, hs.2.2.2]
    refine ⟨⟨1, by omega, ?_⟩, fun q h => (hq q h).2, by rw [h2], ?_⟩
    · intro k _
      rw [run_idle c E kr mem _ (fun q h => (hq q (List.mem_of_mem_take h)).1)]
      show mem = if k < 1 then mem else mem
      split <;> rfl
    · intro hres h
      rw [h1] at h
      have hl := congrArg List.length h
      rw [List.length_map, sampled_length] at hl
      have hr : s.rest.length = 0 := by rw [List.length_nil] at hl; omega
      apply hres
      rw [hrun, if_neg (by omega)]
      rfl

/-! ### The writing task -/

theorem axEnd_zero (c : AxCfg) (ops : List AxOp) (s : Sim AxIn AxAll) : axEnd c ops s 0 = some 0 := by
  simp [axEnd, axUse]

theorem axEnd_cons (c : AxCfg) (op : AxOp) (ops : List AxOp) (s : Sim AxIn AxAll) (t : List (AxAll × AxIn)) (y : Except PyErr (List LogicArray)) (s' : Sim AxIn AxAll)
    (h : axStep c op s = (t, endWith y s')) (hy : ∀ e, y = .error e → ∃ n, e = .axiProtocol n) (k : Nat) :
    axEnd c (op :: ops) s (k + 1) = (axEnd c ops s' k).map (t.length + ·) := by
  unfold axEnd
  rw [List.take_succ_cons, axUse_cons c op (ops.take k) s t y s' h hy]
  simp only [List.length_cons, Nat.add_le_add_iff_right]
  by_cases hk : k ≤ ops.length
  · rw [if_pos hk, if_pos hk]
    generalize axUse c (ops.take k) s' = r
    obtain ⟨_, t2, e⟩ := r
    cases e <;> simp
  · rw [if_neg hk, if_neg hk]
    rfl

theorem axEnd_blocked (c : AxCfg) (op : AxOp) (ops : List AxOp) (s : Sim AxIn AxAll) (t : List (AxAll × AxIn)) (s' : Sim AxIn AxAll)
    (h : axStep c op s = (t, .blocked s')) (k : Nat) : axEnd c (op :: ops) s (k + 1) = none := by
  unfold axEnd
  rw [List.take_succ_cons, axUse_blocked c op (ops.take k) s t s' h]
  simp

/-- the records of a task until all is over: those of the task, and its last values after it -/
def padded (r : Res AxIn AxAll Unit) (pad : List AxIn) : List (AxAll × AxIn) := r.1 ++ pad.map (fun i => (r.2.sim.out, i))

/-- how far the writes have come: `J n` of them have been carried out after `n` edges -/
def Carried (c : AxCfg) (ops : List AxOp) (s : Sim AxIn AxAll) (mem : Nat → Byte) (M : Nat → Nat → Byte) (len : Nat) (J : Nat → Nat) : Prop :=
  (∀ n m, n ≤ m → J n ≤ J m) ∧ (∀ n ≤ len, M n = axFinal c (ops.take (J n)) mem) ∧
  ∀ k e, axEnd c ops s k = some e → ∀ n, (e ≤ n → k ≤ J n) ∧ (n ≤ e → J n ≤ k)

theorem axWriter (c : AxCfg) (hc : Standard c) (ops : List AxOp) : ∀ (s : Sim AxIn AxAll) (kr : Nat) (mem : Nat → Byte), (∀ op ∈ ops, AxOpOk c op) → (∀ op ∈ ops, WriteStep op) →
    AxReady s → (∀ i ∈ s.cur :: s.rest, GoodBeat c.dataBytes i ∧ GoodResp i) → ∀ pad : List AxIn, (∀ s', (axUse c ops s).2.2 = .blocked s' → pad = []) →
    AxMem.Serves c (AxMem.idle allOkay kr mem) (padded (axUse c ops s).2 pad) →
    (∃ l, (axUse c ops s).1 ++ l = ops.map (fun _ => .ok [])) ∧ ((∃ s', (axUse c ops s).2.2 = .blocked s') ∨ (∃ s', (axUse c ops s).2.2 = .ok () s')) ∧
    (∀ q ∈ padded (axUse c ops s).2 pad, q.1.2 = s.out.2) ∧
    ∃ J, Carried c ops s mem (fun n => (AxMem.run c (AxMem.idle allOkay kr mem) ((padded (axUse c ops s).2 pad).take n)).mem) (padded (axUse c ops s).2 pad).length J := by
  induction ops with
  | nil =>
    intro s kr mem _ _ hs _ pad _ _
    have hT : padded (axUse c [] s).2 pad = pad.map (fun i => (s.out, i)) := rfl
    rw [hT]
    refine ⟨⟨[], rfl⟩, .inr ⟨s, rfl⟩, ?_, fun _ => 0, fun _ _ _ => Nat.le_refl _, ?_, ?_⟩
    · intro q hq
      obtain ⟨i, _, rfl⟩ := List.mem_map.1 hq
      rfl
    · intro n _
      show (AxMem.run c (AxMem.idle allOkay kr mem) _).mem = mem
      rw [run_idle]
      · rfl
      · intro q hq
        obtain ⟨i, _, rfl⟩ := List.mem_map.1 (List.mem_of_mem_take hq)
        refine ⟨?_, ?_, ?_⟩
        · simp [Stream.xfer, awStream, hs.2.1]
        · simp [Stream.xfer, wStream, hs.2.2.1]
        · simp [Stream.xfer, arStream, hs.2.2.2]
    · intro k e he n
      refine ⟨fun _ => ?_, fun _ => Nat.zero_le _⟩
      unfold axEnd at he
      by_cases hk : k ≤ ([] : List AxOp).length
      · simpa using hk
      · rw [if_neg hk] at he; cases he
  | cons op ops ih =>
    intro s kr mem hops hwr hs hg pad hpad hserve
    have hserve1 := ((serves_append c _ _ _).1 hserve).1
    obtain ⟨-, hok⟩ := axUse_step c hc op ops (hops op (by simp)) s hs hg allOkay kr mem hserve1
    obtain ⟨⟨d, hd0, hd⟩, w2, w3, w4⟩ := axStep_switch c hc op (hops op (by simp)) (hwr op (by simp)) s hs hg allOkay kr rfl mem
    rcases hok with ⟨s', hb⟩ | ⟨s', he, hr, hrun, hin⟩
    · have hst : axStep c op s = ((axStep c op s).1, .blocked s') := by rw [← hb]
      have huse := axUse_blocked c op ops s _ s' hst
      have hp : pad = [] := hpad s' (by rw [huse])
      subst hp
      have hT : padded (axUse c (op :: ops) s).2 [] = (axStep c op s).1 := by rw [huse]; exact List.append_nil _
      rw [hT]
      refine ⟨⟨_, by rw [huse]; rfl⟩, .inl ⟨s', by rw [huse]⟩, w2, fun n => if n < d then 0 else 1, ?_, ?_, ?_⟩
      · intro n m h
        show (if n < d then 0 else 1) ≤ if m < d then 0 else 1
        split <;> split <;> omega
      · intro n hn
        show (AxMem.run c _ _).mem = _
        rw [hd n hn]
        by_cases h : n < d
        · simp [h, axFinal]
        · simp [h, axFinal]
      · intro k e he n
        cases k with
        | zero =>
          rw [axEnd_zero] at he
          injection he with he
          subst he
          refine ⟨fun _ => Nat.zero_le _, fun h => ?_⟩
          show (if n < d then 0 else 1) ≤ 0
          rw [if_pos (by omega)]
          exact Nat.le_refl 0
        | succ k => rw [axEnd_blocked c op ops s _ s' hst] at he; cases he
    · have hoko := axOutcome_okay c op mem
      rw [show allOkay kr = fun _ => 0 from rfl] at he hrun
      rw [hoko.1] at he
      rw [hoko.2] at hrun
      have hret : axReturns c op mem = [] := by
        have := hwr op (by simp)
        cases op <;> first | rfl | exact this.elim
      have hst : axStep c op s = ((axStep c op s).1, endWith (.ok (axReturns c op mem)) s') := by rw [← he]
      have hy : ∀ e, (Except.ok (axReturns c op mem) : Except PyErr (List LogicArray)) = .error e → ∃ n, e = .axiProtocol n := fun e h => by cases h
      have huse := axUse_cons c op ops s _ _ s' hst hy
      have hT : padded (axUse c (op :: ops) s).2 pad = (axStep c op s).1 ++ padded (axUse c ops s').2 pad := by
        rw [huse]
        unfold padded
        rw [List.append_assoc]
      rw [hT] at hserve ⊢
      rw [serves_append, hrun] at hserve
      have hso : s'.out.2 = s.out.2 := by rw [he] at w3; exact w3
      obtain ⟨⟨l, i1⟩, i2, i3, J, i4, i5, i6⟩ := ih s' (kr + axRequests op) (axAfter c op mem) (fun op h => hops op (by simp [h])) (fun op h => hwr op (by simp [h])) hr
        (fun i hi => hg i (hin i hi)) pad (fun u hu => hpad u (by rw [huse]; exact hu)) hserve.2
      have hlen : 0 < (axStep c op s).1.length := by
        rcases Nat.eq_zero_or_pos (axStep c op s).1.length with h | h
        · exact absurd (List.eq_nil_of_length_eq_zero h) (w4 (by unfold result; rw [he]; simp [endWith]))
        · exact h
      generalize (axStep c op s).1 = t at *
      refine ⟨⟨l, by rw [huse, hret]; show _ :: _ ++ l = _; rw [List.cons_append, i1]; rfl⟩, ?_, ?_, fun n => if n < t.length then (if n < d then 0 else 1) else 1 + J (n - t.length), ?_, ?_, ?_⟩
      · rw [huse]; exact i2
      · intro q hq
        rcases List.mem_append.1 hq with h | h
        · exact w2 q h
        · rw [i3 q h, hso]
      · intro n m h
        show (if n < t.length then (if n < d then 0 else 1) else 1 + J (n - t.length)) ≤ if m < t.length then (if m < d then 0 else 1) else 1 + J (m - t.length)
        have := i4 (n - t.length) (m - t.length) (by omega)
        by_cases h1 : n < t.length <;> by_cases h2 : m < t.length <;> by_cases h3 : n < d <;> by_cases h4 : m < d <;> simp only [h1, h2, h3, h4, if_true, if_false] <;> omega
      · intro n hn
        show (AxMem.run c _ _).mem = axFinal c (List.take (if n < t.length then (if n < d then 0 else 1) else 1 + J (n - t.length)) (op :: ops)) mem
        by_cases h : n < t.length
        · rw [List.take_append_of_le_length (by omega), hd n (by omega), if_pos h]
          by_cases h' : n < d
          · simp [h', axFinal]
          · simp [h', axFinal]
        · rw [if_neg h, List.take_append, List.take_of_length_le (by omega), axRun_append, hrun, Nat.add_comm 1, List.take_succ_cons]
          exact i5 (n - t.length) (by rw [List.length_append] at hn; omega)
      · intro k e he' n
        show (e ≤ n → k ≤ if n < t.length then (if n < d then 0 else 1) else 1 + J (n - t.length)) ∧ (n ≤ e → (if n < t.length then (if n < d then 0 else 1) else 1 + J (n - t.length)) ≤ k)
        cases k with
        | zero =>
          rw [axEnd_zero] at he'
          injection he' with he'
          subst he'
          refine ⟨fun _ => Nat.zero_le _, fun h => ?_⟩
          rw [if_pos (by omega), if_pos (by omega)]
          exact Nat.le_refl 0
        | succ k =>
          rw [axEnd_cons c op ops s _ _ s' hst hy] at he'
          cases hk : axEnd c ops s' k with
          | none => rw [hk] at he'; cases he'
          | some e' =>
            rw [hk] at he'
            have he' : t.length + e' = e := by simpa using he'
            obtain ⟨j1, j2⟩ := i6 k e' hk (n - t.length)
            refine ⟨fun h => ?_, fun h => ?_⟩
            · rw [if_neg (by omega)]
              have := j1 (by omega)
              omega
            · split
              · split <;> omega
              · have := j2 (by omega)
                omega

/-! ### Both tasks together -/

theorem onWrite_keeps {α : Type} (x : M AxIn (AddrOut × WOut) α) (v : AddrOut) : Keeps (fun o : AxAll => o.2 = v) (onWrite x) := by
  intro s hs
  unfold onWrite
  simp only
  generalize x ⟨s.phase, s.out.1, s.prev, s.cur, s.rest⟩ = X
  obtain ⟨t, e⟩ := X
  refine ⟨?_, ?_⟩
  · intro q hq
    obtain ⟨y, _, rfl⟩ := List.mem_map.1 hq
    exact hs
  · cases e <;> exact hs

theorem onRead_keeps {α : Type} (x : M AxIn AddrOut α) (v : AddrOut × WOut) : Keeps (fun o : AxAll => o.1 = v) (onRead x) := by
  intro s hs
  unfold onRead
  simp only
  generalize x ⟨s.phase, s.out.2, s.prev, s.cur, s.rest⟩ = X
  obtain ⟨t, e⟩ := X
  refine ⟨?_, ?_⟩
  · intro q hq
    obtain ⟨y, _, rfl⟩ := List.mem_map.1 hq
    exact hs
  · cases e <;> exact hs

theorem writeStep_keeps (c : AxCfg) (op : AxOp) (h : WriteStep op) (v : AddrOut) : Keeps (fun o : AxAll => o.2 = v) (axStep c op) := by
  cases op with
  | write => exact Keeps.bind (onWrite_keeps _ v) (fun _ => Keeps.pure _)
  | liteWrite => exact Keeps.bind (onWrite_keeps _ v) (fun _ => Keeps.pure _)
  | pause n => exact Keeps.bind (Keeps.edges n) (fun _ => Keeps.pure _)
  | read => exact h.elim
  | liteRead => exact h.elim

theorem readStep_keeps (c : AxCfg) (op : AxOp) (h : ReadStep op) (v : AddrOut × WOut) : Keeps (fun o : AxAll => o.1 = v) (axStep c op) := by
  cases op with
  | read => exact Keeps.bind (onRead_keeps _ v) (fun _ => Keeps.pure _)
  | liteRead => exact Keeps.bind (onRead_keeps _ v) (fun _ => Keeps.pure _)
  | pause n => exact Keeps.bind (Keeps.edges n) (fun _ => Keeps.pure _)
  | write => exact h.elim
  | liteWrite => exact h.elim

theorem axUse_keeps (c : AxCfg) (P : AxAll → Prop) (ops : List AxOp) (h : ∀ op ∈ ops, Keeps P (axStep c op)) : Keeps P (fun s => (axUse c ops s).2) := by
  induction ops with
  | nil => intro s hs; exact ⟨fun q hq => (by cases hq), hs⟩
  | cons op ops ih =>
    intro s hs
    have h1 := h op (by simp) s hs
    have ih := ih (fun op h' => h op (by simp [h']))
    show (∀ q ∈ (axUse c (op :: ops) s).2.1, _) ∧ P (axUse c (op :: ops) s).2.2.sim.out
    rw [axUse_eq]
    generalize axStep c op s = X at h1
    obtain ⟨t, e⟩ := X
    have happ : ∀ s', P s'.out → (∀ q ∈ t ++ (axUse c ops s').2.1, P q.1) ∧ P (axUse c ops s').2.2.sim.out := by
      intro s' hs'
      refine ⟨?_, (ih s' hs').2⟩
      intro q hq
      rcases List.mem_append.1 hq with h | h
      · exact h1.1 q h
      · exact (ih s' hs').1 q h
    cases e with
    | ok d s' => exact happ s' h1.2
    | blocked s' => exact h1
    | err e s' =>
      cases e with
      | axiProtocol n => exact happ s' h1.2
      | _ => exact h1

theorem axUse_good (c : AxCfg) (ops : List AxOp) : Good (fun s => (axUse c ops s).2) := by
  induction ops with
  | nil => intro s; exact ⟨rfl, fun s' h => (by cases h)⟩
  | cons op ops ih =>
    intro s
    have h1 := axStep_good c op s
    show _ = (axUse c (op :: ops) s).2.1.map Prod.snd ++ (axUse c (op :: ops) s).2.2.sim.cur :: (axUse c (op :: ops) s).2.2.sim.rest ∧
      ∀ s', (axUse c (op :: ops) s).2.2 = .blocked s' → s'.rest = []
    rw [axUse_eq]
    generalize axStep c op s = X at h1
    obtain ⟨t, e⟩ := X
    have happ : ∀ s' : Sim AxIn AxAll, s.cur :: s.rest = t.map Prod.snd ++ s'.cur :: s'.rest →
        s.cur :: s.rest = (t ++ (axUse c ops s').2.1).map Prod.snd ++ (axUse c ops s').2.2.sim.cur :: (axUse c ops s').2.2.sim.rest ∧
        ∀ u, (axUse c ops s').2.2 = .blocked u → u.rest = [] := by
      intro s' h
      have := ih s'
      refine ⟨?_, this.2⟩
      rw [List.map_append, List.append_assoc, ← this.1]
      exact h
    cases e with
    | ok d s' => exact happ s' h1.1
    | blocked s' => exact ⟨h1.1, fun u hu => (by cases hu; exact h1.2 s' rfl)⟩
    | err e s' =>
      cases e with
      | axiProtocol n => exact happ s' h1.1
      | _ => exact ⟨h1.1, fun u hu => (by cases hu)⟩

/-- the write part of a memory that refuses nothing -/
def WView (m m' : AxMem) : Prop := m'.mem = m.mem ∧ m'.aw = m.aw ∧ m'.w = m.w ∧ m'.b = m.b ∧ m'.ar = none ∧ m.code = allOkay ∧ m'.code = allOkay

theorem WView.step {c : AxCfg} {m m' : AxMem} (h : WView m m') (q : AxAll × AxIn) (y : AddrOut) (hy : y.valid = .zero) :
    WView (m.step c q) (m'.step c ((q.1.1, y), q.2)) := by
  obtain ⟨mem, aw, w, ar, b, k, code⟩ := m
  obtain ⟨mem', aw', w', ar', b', k', code'⟩ := m'
  obtain ⟨h1, h2, h3, h4, h5, h6, h7⟩ := h
  simp only at h1 h2 h3 h4 h5 h6 h7
  subst h1 h2 h3 h4 h5 h6 h7
  have hx : (arStream c).xfer (y, q.2) = false := by simp [Stream.xfer, arStream, hy]
  unfold AxMem.step
  simp only [hx, Bool.false_eq_true, if_false]
  generalize (if (awStream c).xfer (q.1.1.1, q.2) then some ((awStream c).payload q.1.1.1) else aw') = aw
  generalize (if (wStream c).xfer (q.1.1.2, q.2) then w' ++ [(wStream c).payload q.1.1.2] else w') = w
  unfold AxMem.commit
  simp only
  cases aw with
  | none => exact ⟨rfl, rfl, rfl, rfl, rfl, rfl, rfl⟩
  | some p =>
    simp only
    split
    · exact ⟨rfl, rfl, rfl, rfl, rfl, rfl, rfl⟩
    · exact ⟨rfl, rfl, rfl, rfl, rfl, rfl, rfl⟩

theorem WView.right {c : AxCfg} {m m' : AxMem} (h : WView m m') {i : AxIn} (hr : m.Right c i) : m'.Right c i := by
  obtain ⟨_, _, _, h4, h5, _⟩ := h
  refine ⟨?_, ?_⟩
  · rw [h4]; exact hr.1
  · intro _ p n hp
    rw [h5] at hp
    cases hp

theorem WView.serves {c : AxCfg} (y : AddrOut) (hy : y.valid = .zero) (T : List (AxAll × AxIn)) : ∀ {m m' : AxMem}, WView m m' → AxMem.Serves c m T →
    AxMem.Serves c m' (T.map (fun q => ((q.1.1, y), q.2))) := by
  induction T with
  | nil => intro m m' _ _; trivial
  | cons q T ih => intro m m' h hs; exact ⟨h.right hs.1, ih (h.step q y hy) hs.2⟩

theorem WView.run {c : AxCfg} (y : AddrOut) (hy : y.valid = .zero) (T : List (AxAll × AxIn)) : ∀ {m m' : AxMem}, WView m m' →
    WView (AxMem.run c m T) (AxMem.run c m' (T.map (fun q => ((q.1.1, y), q.2)))) := by
  induction T with
  | nil => intro m m' h; exact h
  | cons q T ih => intro m m' h; exact ih (h.step q y hy)

/-- the records of the writing task in those of both -/
theorem axPar_left (c : AxCfg) (wops rops : List AxOp) (s : Sim AxIn AxAll) (hw : ∀ op ∈ wops, WriteStep op) :
    ∃ pad : List AxIn, (axPar c wops rops s).trace.map (fun q => ((q.1.1, s.out.2), q.2)) = padded (axUse c wops s).2 pad ∧
      ∀ s', (axUse c wops s).2.2 = .blocked s' → pad = [] := by
  have hk := axUse_keeps c (fun o => o.2 = s.out.2) wops (fun op h => writeStep_keeps c op (hw op h) _) s rfl
  have hg := axUse_good c wops s
  have hg' := axUse_good c rops s
  simp only at hk hg hg'
  have hj := joinTrace_left ((axUse c wops s).2.1.map (fun q => (q.1.1, q.2))) (axUse c wops s).2.2.sim.out.1 (axUse c rops s).2.2.sim.out.2 ((axUse c rops s).2.1.map (fun q => (q.1.2, q.2)))
  refine ⟨((axUse c rops s).2.1.drop (axUse c wops s).2.1.length).map Prod.snd, ?_, ?_⟩
  · have := congrArg (List.map (fun q : (AddrOut × WOut) × AxIn => (((q.1, s.out.2), q.2) : AxAll × AxIn))) hj
    rw [List.map_map] at this
    show List.map _ (joinTrace _ _ _ _) = _
    have e : (fun q : AxAll × AxIn => (((q.1.1, s.out.2), q.2) : AxAll × AxIn)) = ((fun q : (AddrOut × WOut) × AxIn => (((q.1, s.out.2), q.2) : AxAll × AxIn)) ∘ fun r => (r.1.1, r.2)) := rfl
    rw [e, this]
    unfold padded
    rw [List.map_append, List.map_map, List.length_map, List.map_drop, List.map_drop, List.map_drop, List.map_drop, List.map_map, List.map_map, List.map_map]
    congr 1
    · conv => rhs; rw [← List.map_id (axUse c wops s).2.1]
      apply List.map_congr_left
      intro q hq
      have := hk.1 q hq
      obtain ⟨⟨o1, o2⟩, i⟩ := q
      simp only at this
      subst this
      rfl
    · congr 1
      apply List.map_congr_left
      intro q hq
      show ((_, s.out.2), _) = _
      rw [← hk.2]
      rfl
  · intro s' hs'
    have h1 := hg.1
    rw [hs'] at h1
    have h2 := hg.2 s' hs'
    have h3 := congrArg List.length h1
    have h4 := congrArg List.length hg'.1
    have hsim : (End.blocked s' : End AxIn AxAll Unit).sim = s' := rfl
    rw [hsim, h2] at h3
    simp at h3 h4
    rw [List.drop_eq_nil_of_le (by omega)]
    rfl

end CocotbBus
