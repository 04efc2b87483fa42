import Verif.Proof.AxiUse

/-! # AXI4 masters and a memory that answers in time -/

namespace CocotbBus
open Spec Coro
variable {I O P : Type}

/-! ### Streams -/

/-- valid without ready at less than `N` edges in a row -/
def Spec.Stream.Windows (V : Stream I O P) (N : Nat) (t : List (O × I)) : Prop :=
  ∀ a h b, t = a ++ h ++ b → (∀ q ∈ h, V.valid q.1 = true ∧ V.ready q.2 = false) → h.length < N

theorem windows_prefix (V : Stream I O P) (N : Nat) (t u : List (O × I)) (h : V.Windows N (t ++ u)) : V.Windows N t := by
  intro a w b e hw
  exact h a w (b ++ u) (by rw [e]; simp) hw

theorem length_windows (V : Stream I O P) (N : Nat) (t : List (O × I)) : ∀ pre : List (O × I), (∀ q ∈ pre, V.valid q.1 = true ∧ V.ready q.2 = false) →
    V.Windows N (pre ++ t) → V.Holds t → (pre ≠ [] → ∀ q, t.head? = some q → V.valid q.1 = true) →
    t.length + pre.length + 1 ≤ (idles V t).length + N * (V.taken t).length + N := by
  induction t with
  | nil =>
    intro pre hp hw _ _
    have := hw [] pre [] (by simp) hp
    simp
    omega
  | cons q t ih =>
    intro pre hp hw hh hv
    have hh' : V.Holds t := by
      cases t with
      | nil => trivial
      | cons _ _ => exact hh.2
    have hlt := hw [] pre (q :: t) (by simp) hp
    have hwt : V.Windows N ([] ++ t) := by
      intro a h b e hs
      exact hw (pre ++ q :: a) h b (by rw [List.nil_append] at e; rw [e]; simp) hs
    by_cases hval : V.valid q.1 = true
    · by_cases hr : V.ready q.2 = true
      · have hx : V.xfer q = true := by simp [Stream.xfer, hval, hr]
        have := ih [] (by simp) hwt hh' (by simp)
        have e1 : idles V (q :: t) = idles V t := by simp [idles, hval]
        have e2 : (V.taken (q :: t)).length = (V.taken t).length + 1 := by simp [Stream.taken, hx]
        rw [e1, e2, Nat.mul_add]
        simp only [List.length_cons, List.length_nil] at this ⊢
        omega
      · have hr' : V.ready q.2 = false := by simpa using hr
        have hx : V.xfer q = false := by simp [Stream.xfer, hr']
        have := ih (pre ++ [q]) (by
            intro x hx
            rcases List.mem_append.1 hx with hx | hx
            · exact hp x hx
            · rw [List.mem_singleton.1 hx]; exact ⟨hval, hr'⟩) (by simpa using hw) hh' (by
            intro _ x hx
            cases t with
            | nil => cases hx
            | cons y t =>
              have : y = x := by simpa using hx
              subst this
              exact (hh.1 hval hr').1)
        have e1 : idles V (q :: t) = idles V t := by simp [idles, hval]
        have e2 : V.taken (q :: t) = V.taken t := by simp [Stream.taken, hx]
        rw [e1, e2]
        simp only [List.length_cons, List.length_append, List.length_nil] at this ⊢
        omega
    · have hval' : V.valid q.1 = false := by simpa using hval
      have hpre : pre = [] := by
        cases pre with
        | nil => rfl
        | cons x pre => exact absurd (hv (by simp) q rfl) hval
      subst hpre
      have := ih [] (by simp) hwt hh' (by simp)
      have hx : V.xfer q = false := by simp [Stream.xfer, hval']
      have e1 : (idles V (q :: t)).length = (idles V t).length + 1 := by simp [idles, hval']
      have e2 : V.taken (q :: t) = V.taken t := by simp [Stream.taken, hx]
      rw [e1, e2]
      simp only [List.length_cons, List.length_nil] at this ⊢
      omega

theorem length_burst (V : Stream I O P) (N : Nat) (t : List (O × I)) (q : O × I) (hw : V.Windows N t) (hh : V.Holds t) (hq : t.getLast? = some q) (hx : V.xfer q = true) :
    t.length ≤ (idles V t).length + N * (V.taken t).length := by
  obtain ⟨t', rfl⟩ := List.getLast?_eq_some_iff.1 hq
  have := length_windows V N t' [] (by simp) (windows_prefix V N t' [q] (by simpa using hw)) (holds_take V t' [q] hh) (by simp)
  rw [taken_append, idles_append]
  have e : (V.taken [q]).length = 1 := by simp [Stream.taken, hx]
  rw [List.length_append, List.length_append, List.length_append, e, Nat.mul_add]
  simp only [List.length_nil, List.length_cons] at this ⊢
  omega

theorem length_request {V : Stream I O P} {N n : Nat} {p : P} {t : List (O × I)} {acc : Bool} (h : V.Request p n t acc) (hw : V.Windows N t) :
    (acc = true → t.length ≤ n + N) ∧ (acc = false → t.length < n + N) := by
  obtain ⟨idle, held, h1, h2, h3⟩ := h
  have hN : 0 < N := by simpa using hw [] [] t (by simp) (by simp)
  cases acc with
  | true =>
    simp only [if_true] at h3
    obtain ⟨h4, q, h5, _⟩ := h3
    have := hw idle held [q] h5 (fun q hq => ⟨(h2 q hq).1, (h2 q hq).2.2⟩)
    refine ⟨fun _ => ?_, fun h => by cases h⟩
    rw [h5]
    simp
    omega
  | false =>
    simp only [Bool.false_eq_true, if_false] at h3
    refine ⟨fun h => (by cases h), fun _ => ?_⟩
    rcases h3 with ⟨h3, h4⟩ | ⟨h3, h4⟩
    · rw [h3]; omega
    · have := hw idle held [] (by rw [h3]; simp) (fun q hq => ⟨(h2 q hq).1, (h2 q hq).2.2⟩)
      rw [h3, List.length_append]
      omega

/-! ### Waiting -/

/-- the waiting times after a trace -/
def AxWait.run (c : AxCfg) : AxMem → AxWait → List (AxAll × AxIn) → AxWait
  | _, x, [] => x
  | m, x, q :: t => AxWait.run c (m.step c q) (x.step c m q) t

theorem prompt_append (N : Nat) (c : AxCfg) (t u : List (AxAll × AxIn)) : ∀ (m : AxMem) (x : AxWait),
    AxMem.Prompt N c m x (t ++ u) → AxMem.Prompt N c m x t ∧ AxMem.Prompt N c (AxMem.run c m t) (AxWait.run c m x t) u := by
  induction t with
  | nil =>
    intro m x h
    refine ⟨?_, h⟩
    cases u with
    | nil => exact h
    | cons q u => exact h.1
  | cons q t ih =>
    intro m x h
    obtain ⟨h1, h2⟩ := ih _ _ h.2
    exact ⟨⟨h.1, h1⟩, h2⟩

theorem wait_append (c : AxCfg) (t u : List (AxAll × AxIn)) : ∀ (m : AxMem) (x : AxWait),
    AxWait.run c m x (t ++ u) = AxWait.run c (AxMem.run c m t) (AxWait.run c m x t) u := by
  induction t with
  | nil => intro m x; rfl
  | cons q t ih => intro m x; exact ih _ _

theorem prompt_below {N : Nat} {c : AxCfg} {m : AxMem} {x : AxWait} {t : List (AxAll × AxIn)} (h : AxMem.Prompt N c m x t) : x.Below N := by
  cases t with
  | nil => exact h
  | cons q t => exact h.1

theorem prompt_end {N : Nat} {c : AxCfg} {m : AxMem} {x : AxWait} {t : List (AxAll × AxIn)} (h : AxMem.Prompt N c m x t) : (AxWait.run c m x t).Below N := by
  have := prompt_append N c t [] m x (by rwa [List.append_nil])
  exact this.2

theorem wait_count (c : AxCfg) (f : AxWait → Nat) (S : AxAll × AxIn → Prop) (hf : ∀ m x q, S q → f (x.step c m q) = f x + 1) (h : List (AxAll × AxIn)) :
    ∀ m x, (∀ q ∈ h, S q) → f (AxWait.run c m x h) = f x + h.length := by
  induction h with
  | nil => intro m x _; rfl
  | cons q h ih =>
    intro m x hs
    show f (AxWait.run c (m.step c q) (x.step c m q) h) = _
    rw [ih _ _ (fun q hq => hs q (by simp [hq])), hf m x q (hs q (by simp)), List.length_cons]
    omega

theorem prompt_windows {N : Nat} {c : AxCfg} {m : AxMem} {x : AxWait} {t : List (AxAll × AxIn)} (h : AxMem.Prompt N c m x t) {P : Type} (V : Stream AxIn O P)
    (g : AxAll → O) (f : AxWait → Nat) (hb : ∀ x : AxWait, x.Below N → f x < N)
    (hf : ∀ m x q, V.valid (g q.1) = true ∧ V.ready q.2 = false → f (x.step c m q) = f x + 1) :
    V.Windows N (t.map (fun q => (g q.1, q.2))) := by
  intro a w b e hw
  obtain ⟨t1, b', e1, e2, e3⟩ := List.map_eq_append_iff.1 e
  obtain ⟨a', w', e4, e5, e6⟩ := List.map_eq_append_iff.1 e2
  subst e1 e4
  have h1 := (prompt_append N c _ _ _ _ (prompt_append N c _ _ _ _ h).1).2
  have h2 := hb _ (prompt_end h1)
  rw [wait_count c f (fun q => V.valid (g q.1) = true ∧ V.ready q.2 = false) hf w' _ _ (by
    intro q hq
    exact hw (g q.1, q.2) (by rw [← e6]; exact List.mem_map.2 ⟨q, hq, rfl⟩))] at h2
  rw [← e6, List.length_map]
  omega

theorem prompt_aw {N : Nat} {c : AxCfg} {m : AxMem} {x : AxWait} {t : List (AxAll × AxIn)} (h : AxMem.Prompt N c m x t) : (awStream c).Windows N (awOf t) :=
  prompt_windows h (awStream c) (fun o => o.1.1) AxWait.aw (fun _ h => h.1) (fun m x q hq => by simp [AxWait.step, hq.1, hq.2])

theorem prompt_w {N : Nat} {c : AxCfg} {m : AxMem} {x : AxWait} {t : List (AxAll × AxIn)} (h : AxMem.Prompt N c m x t) : (wStream c).Windows N (wOf t) :=
  prompt_windows h (wStream c) (fun o => o.1.2) AxWait.w (fun _ h => h.2.1) (fun m x q hq => by simp [AxWait.step, hq.1, hq.2])

theorem prompt_ar {N : Nat} {c : AxCfg} {m : AxMem} {x : AxWait} {t : List (AxAll × AxIn)} (h : AxMem.Prompt N c m x t) :
    (arStream c).Windows N (t.map (fun q => (q.1.2, q.2))) :=
  prompt_windows h (arStream c) (fun o => o.2) AxWait.ar (fun _ h => h.2.2.1) (fun m x q hq => by simp [AxWait.step, hq.1, hq.2])

/-- waiting for the response -/
theorem wait_b (c : AxCfg) (E : Nat → Nat → Nat) (kr : Nat) (mem : Nat → Byte) (b : Option Nat) (t : List (AxAll × AxIn)) : ∀ (x : AxWait), (∀ q ∈ t, QuietAt c q) →
    (∀ q ∈ t, bFire q.2 = false) → (AxWait.run c ⟨mem, none, [], none, b, kr, E⟩ x t).b = x.b.map (· + t.length) := by
  induction t with
  | nil => intro x _ _; show x.b = _; cases x.b <;> rfl
  | cons q t ih =>
    intro x hq hb
    obtain ⟨q1, q2, q3⟩ := hq q (by simp)
    show (AxWait.run c (AxMem.step c ⟨mem, none, [], none, b, kr, E⟩ q) (x.step c ⟨mem, none, [], none, b, kr, E⟩ q) t).b = _
    have hb0 := hb q (by simp)
    rw [step_rest c E kr mem b q ⟨q1, q2, q3⟩, hb0]
    simp only [Bool.false_eq_true, if_false]
    rw [ih _ (fun q h => hq q (by simp [h])) (fun q h => hb q (by simp [h]))]
    have : (x.step c ⟨mem, none, [], none, b, kr, E⟩ q).b = x.b.map (· + 1) := by simp [AxWait.step, q1, q2, hb0]
    rw [this]
    cases x.b with
    | none => rfl
    | some k => simp; omega

/-- no response becomes due -/
theorem wait_b_none (c : AxCfg) (t : List (AxAll × AxIn)) : ∀ (m : AxMem) (x : AxWait), x.b = none →
    (∀ q ∈ t, (awStream c).xfer (q.1.1.1, q.2) = false ∧ (wStream c).xfer (q.1.1.2, q.2) = false) → (AxWait.run c m x t).b = none := by
  induction t with
  | nil => intro m x h _; exact h
  | cons q t ih =>
    intro m x h hq
    refine ih _ _ ?_ (fun q h => hq q (by simp [h]))
    obtain ⟨q1, q2⟩ := hq q (by simp)
    simp [AxWait.step, q1, q2, h]

/-- RLAST is right in the whole trace -/
def LastRight (c : AxCfg) : AxMem → List (AxAll × AxIn) → Prop
  | _, [] => True
  | m, q :: t => (rFire q.2 = true → ∀ p n, m.ar = some (p, n) → (rLast c q.2 = true ↔ n + 1 = (p.decode c.dataBytes).2.2.2)) ∧ LastRight c (m.step c q) t

theorem lastRight_append (c : AxCfg) (t u : List (AxAll × AxIn)) : ∀ m, LastRight c m (t ++ u) ↔ LastRight c m t ∧ LastRight c (AxMem.run c m t) u := by
  induction t with
  | nil => intro m; exact ⟨fun h => ⟨trivial, h⟩, fun h => h.2⟩
  | cons q t ih =>
    intro m
    show (_ ∧ LastRight c _ (t ++ u)) ↔ (_ ∧ LastRight c _ t) ∧ LastRight c (AxMem.run c (m.step c q) t) u
    rw [ih, and_assoc]

theorem lastRight_of_serves {c : AxCfg} {t : List (AxAll × AxIn)} : ∀ {m : AxMem}, AxMem.Serves c m t → LastRight c m t := by
  induction t with
  | nil => intro m _; trivial
  | cons q t ih =>
    intro m h
    exact ⟨fun hf p n hm => (h.1.2 hf p n hm).2.2.1, ih h.2⟩

/-- waiting for the beats of a read -/
theorem wait_beats (N : Nat) (c : AxCfg) (E : Nat → Nat → Nat) (kr : Nat) (mem : Nat → Byte) (p : AddrReq) (t : List (AxAll × AxIn)) : ∀ (n : Nat) (x : AxWait), n < (p.decode c.dataBytes).2.2.2 →
    (∀ q ∈ t, QuietAt c q) → LastRight c ⟨mem, none, [], some (p, n), none, kr, E⟩ t → (∀ q ∈ t, rFire q.2 = true → rLast c q.2 = false) →
    AxMem.Prompt N c ⟨mem, none, [], some (p, n), none, kr, E⟩ x t → t.length + x.r + 1 ≤ N * (beatsIn t).length + N ∧ n + (beatsIn t).length < (p.decode c.dataBytes).2.2.2 := by
  induction t with
  | nil => intro n x hn _ _ _ hp; have := hp.2.2.2.1; refine ⟨by simp [beatsIn]; omega, hn⟩
  | cons q t ih =>
    intro n x hn hq hs hl hp
    obtain ⟨q1, q2, q3⟩ := hq q (by simp)
    have hq' : ∀ q ∈ t, QuietAt c q := fun q hx => hq q (by simp [hx])
    have hl' : ∀ q ∈ t, rFire q.2 = true → rLast c q.2 = false := fun q hx => hl q (by simp [hx])
    have hbelow : x.r < N := hp.1.2.2.2.1
    cases hf : rFire q.2 with
    | false =>
      have hst : AxMem.step c ⟨mem, none, [], some (p, n), none, kr, E⟩ q = ⟨mem, none, [], some (p, n), none, kr, E⟩ := by
        simp [AxMem.step, AxMem.commit, q1, q2, q3, hf]
      have hb : beatsIn (q :: t) = beatsIn t := by simp [beatsIn, hf]
      have hr : (x.step c ⟨mem, none, [], some (p, n), none, kr, E⟩ q).r = x.r + 1 := by simp [AxWait.step, hst, q3, hf]
      have h2 := hs.2
      have h3 := hp.2
      rw [hst] at h2 h3
      have := ih n _ hn hq' h2 hl' h3
      rw [hr] at this
      rw [hb]
      simp only [List.length_cons]
      omega
    | true =>
      have b2 := hs.1 hf p n rfl
      have hne : ¬ n + 1 = (p.decode c.dataBytes).2.2.2 := by
        intro h
        have := b2.2 h
        rw [hl q (by simp) hf] at this
        cases this
      have hst : AxMem.step c ⟨mem, none, [], some (p, n), none, kr, E⟩ q = ⟨mem, none, [], some (p, n + 1), none, kr, E⟩ := by
        simp [AxMem.step, AxMem.commit, q1, q2, q3, hf, hne]
      have hb : beatsIn (q :: t) = q.2 :: beatsIn t := by simp [beatsIn, hf]
      have h2 := hs.2
      have h3 := hp.2
      rw [hst] at h2 h3
      have := ih (n + 1) _ (by omega) hq' h2 hl' h3
      rw [hb]
      simp only [List.length_cons, Nat.mul_add]
      omega

/-- an edge after which nothing is waited for -/
theorem wait_zero (c : AxCfg) (m : AxMem) (x : AxWait) (q : AxAll × AxIn) (h1 : (awStream c).valid q.1.1.1 = false) (h2 : (wStream c).valid q.1.1.2 = false)
    (h3 : (arStream c).valid q.1.2 = false) (h4 : (m.step c q).ar = none ∨ rFire q.2 = true) (h5 : x.b = none ∨ bFire q.2 = true) : x.step c m q = AxWait.zero := by
  have x1 : (awStream c).xfer (q.1.1.1, q.2) = false := by simp [Stream.xfer, h1]
  have x2 : (wStream c).xfer (q.1.1.2, q.2) = false := by simp [Stream.xfer, h2]
  unfold AxWait.step AxWait.zero
  rw [h1, h2, h3, x1, x2]
  rcases h4 with h4 | h4 <;> rcases h5 with h5 | h5 <;> simp [h4, h5]

/-! ### Calls -/

theorem blocked_of_none {α : Type} {r : Res I O α} (h : result r = none) : ∃ s', r.2 = .blocked s' := by
  unfold result at h
  cases hr : r.2 with
  | ok _ _ => rw [hr] at h; cases h
  | err _ _ => rw [hr] at h; cases h
  | blocked s' => exact ⟨s', rfl⟩

/-- the length of the trace of a call, and what is waited for after it -/
def LiveCall {α : Type} (c : AxCfg) (E : Nat → Nat → Nat) (kr : Nat) (mem : Nat → Byte) (cost : Nat) (t : List (AxAll × AxIn)) (e : End I O α) : Prop :=
  (∀ s', e = .blocked s' → t.length < cost) ∧
  (∀ s', Ended e s' → t.length ≤ cost ∧ AxWait.run c (AxMem.idle E kr mem) AxWait.zero t = AxWait.zero)

theorem sum_gap (n k : Nat) : (n :: List.replicate k 0).sum = n := by simp

theorem axWrite_live (c : AxCfg) (hc : Standard c) (a : Nat) (ha : a < 2 ^ c.addrW) (value : List Nat) (size : Option Int) (burst : AxiBurst)
    (be : List (Option Nat)) (hbe : be ≠ []) (al dl : Nat) (hd : dl = 0 ∨ value.length = 1) (sync : Bool) (sz : Nat) (hl : Legal c a value.length size burst sz)
    (hlite : c.full = false → sz = c.dataBytes ∧ burst = .incr ∧ value.length = 1)
    (s : Sim AxIn (AddrOut × WOut)) (hs : WriteReady sync s) (hg : ∀ i ∈ s.cur :: s.rest, GoodResp i) (o : AddrOut) (ho : o.valid = .zero) (E : Nat → Nat → Nat) (kr : Nat) (mem : Nat → Byte) (N : Nat) :
    let r := axiWrite c a value size burst be al dl sync s
    let t := r.1.map (fun q => ((q.1, o), q.2))
    AxMem.Prompt N c (AxMem.idle E kr mem) AxWait.zero t →
    LiveCall c E kr mem ((if sync then 1 else 0) + max (al + N) (dl + N * value.length) + N) t r.2 := by
  intro r t hp
  obtain ⟨h1, h2, h3, k, m, hk, hm, hW⟩ := Legal.facts hl hc ha
  change 0 < value.length at h3
  obtain ⟨beats, b1, b2, b3⟩ := axiWriteBeats_ok sz m a h2 hm burst value be hbe
  rw [← hW] at b1 b3
  have hne : beats ≠ [] := by
    intro h
    rw [h] at b2
    simp at b2
    omega
  have hspec := axiWriteRun_spec c a value sz burst be al dl sync h1 h2 beats b1 hne b3 (by rw [b2]; exact hd) s hs.1 hs.2.1 hs.2.2 hg
  simp only at hspec
  have hr : r = axiWriteRun c a value sz burst be al dl sync s := by
    show axiWrite c a value size burst be al dl sync s = _
    rw [axiWrite_legal c hc a value size burst be al dl sync sz hl]
  rw [← hr] at hspec
  obtain ⟨tc, tb, aw, w, e1, e2, e3, e4, e5⟩ := hspec
  let F : (AddrOut × WOut) × AxIn → AxAll × AxIn := fun q => ((q.1, o), q.2)
  have ht : t = tc.map F ++ tb.map F := by
    show r.1.map F = _
    rw [e1, List.map_append]
  have htl : t.length = r.1.length := by show (r.1.map F).length = _; rw [List.length_map]
  have haw : awOf t = awTrace r.1 := by simp [awOf, t, awTrace, List.map_map, Function.comp_def]
  have hw' : wOf t = wTrace r.1 := by simp [wOf, t, wTrace, List.map_map, Function.comp_def]
  have wa := prompt_aw hp
  have ww := prompt_w hp
  rw [haw] at wa
  rw [hw'] at ww
  have hN : 0 < N := by simpa using wa [] [] _ (by simp; rfl) (by simp)
  have lenA : (awTrace r.1).length = r.1.length := by simp [awTrace]
  have lenW : (wTrace r.1).length = r.1.length := by simp [wTrace]
  obtain ⟨a1, a2, ae, areq, af, ai⟩ := e2
  obtain ⟨w1, w2, we, wh, wid, wi, wc⟩ := e3
  rw [sum_gap] at wid
  have wid' : (idles (wStream c) w1).length ≤ dl + if sync then 1 else 0 := wid
  have la := length_request areq (windows_prefix _ N a1 a2 (by rw [← ae]; exact wa))
  have hww : (wStream c).Windows N w1 := windows_prefix _ N w1 w2 (by rw [← we]; exact ww)
  by_cases hboth : (aw && w) = true
  · -- both channels are through
    simp only [Bool.and_eq_true] at hboth
    obtain ⟨rfl, rfl⟩ := hboth
    obtain ⟨q1, resp, ql, hlast, hx⟩ := e5 rfl
    simp only [if_true] at wc
    obtain ⟨wt, wns, wl⟩ := wc
    obtain ⟨qw, wl1, wl2⟩ := wl (wReqs_ne c beats hne)
    have lw := length_burst (wStream c) N w1 qw hww wh wl1 wl2
    rw [wt, wReqs_length, b2] at lw
    have la' := la.1 rfl
    -- the number of edges until then
    have htc : tc.length ≤ (if sync then 1 else 0) + max (al + N) (dl + N * value.length) := by
      have hlen : 0 < tc.length := by cases tc with
        | nil => cases hlast
        | cons _ _ => simp
      have hql : tc[tc.length - 1]? = some ql := by rw [← List.getLast?_eq_getElem?]; exact hlast
      have hqr : r.1[tc.length - 1]? = some ql := by rw [e1, List.getElem?_append_left (by omega)]; exact hql
      rcases hx with hx | hx
      · have : tc.length ≤ a1.length := by
          rcases Nat.lt_or_ge a1.length tc.length with hlt | hge
          · have hmem : (ql.1.1, ql.2) ∈ a2 := by
              have : (awTrace r.1)[tc.length - 1]? = some (ql.1.1, ql.2) := by simp [awTrace, hqr]
              rw [ae, List.getElem?_append_right (by omega)] at this
              exact List.mem_of_getElem? this
            have := ai _ hmem
            simp only [Stream.xfer, this, Bool.false_and] at hx
            cases hx
          · exact hge
        omega
      · have : tc.length ≤ w1.length := by
          rcases Nat.lt_or_ge w1.length tc.length with hlt | hge
          · have hmem : (ql.1.2, ql.2) ∈ w2 := by
              have : (wTrace r.1)[tc.length - 1]? = some (ql.1.2, ql.2) := by simp [wTrace, hqr]
              rw [we, List.getElem?_append_right (by omega)] at this
              exact List.mem_of_getElem? this
            have := wi _ hmem
            simp only [Stream.xfer, this, Bool.false_and] at hx
            cases hx
          · exact hge
        omega
    -- the memory then has the burst
    have hdec := decode_addrReq c a value.length sz k burst h1 hk h3 hlite
    have htb : ∀ q ∈ tb.map F, QuietAt c q ∧ (awStream c).valid q.1.1.1 = false ∧ (wStream c).valid q.1.1.2 = false ∧ (arStream c).valid q.1.2 = false := by
      intro q hq
      obtain ⟨y, hy, rfl⟩ := List.mem_map.1 hq
      obtain ⟨v1, v2⟩ := q1 y hy
      exact ⟨⟨by simp [F, Stream.xfer, v1], by simp [F, Stream.xfer, v2], by simp [F, Stream.xfer, arStream, ho]⟩, v1, v2, by simp [F, arStream, ho]⟩
    have takenA : (awStream c).taken (awOf (tc.map F)) = [addrReq c a value.length sz burst] := by
      have h := Stream.Once.taken_eq (V := awStream c) (t := awTrace r.1) ⟨a1, a2, ae, areq, af, ai⟩
      rw [← haw, ht] at h
      unfold awOf at h ⊢
      rw [List.map_append, taken_append, taken_none (awStream c) (((tb.map F)).map _) (by
        intro x hx
        obtain ⟨y, hy, rfl⟩ := List.mem_map.1 hx
        exact (htb y hy).1.1), List.append_nil] at h
      exact h
    have takenW : (wStream c).taken (wOf (tc.map F)) = wReqs c beats := by
      have h : (wStream c).taken (wTrace r.1) = wReqs c beats := by
        rw [we, taken_append, wt, taken_none (wStream c) w2 (fun x hx => by simp [Stream.xfer, wi x hx]), List.append_nil]
      rw [← hw', ht] at h
      unfold wOf at h ⊢
      rw [List.map_append, taken_append, taken_none (wStream c) (((tb.map F)).map _) (by
        intro x hx
        obtain ⟨y, hy, rfl⟩ := List.mem_map.1 hx
        exact (htb y hy).1.2.1), List.append_nil] at h
      exact h
    obtain ⟨b', hrun, hlast'⟩ := run_write c E kr (addrReq c a value.length sz burst) (wReqs c beats) mem (by rw [hdec, wReqs_length, b2]) (tc.map F) none [] none (by
        rw [Option.toList_none, List.nil_append]; exact takenA) (by rw [List.nil_append]; exact takenW) (.inl rfl) (by
        intro q hq
        obtain ⟨x, _, rfl⟩ := List.mem_map.1 hq
        simp [F, Stream.xfer, arStream, ho])
    have hb' : b' = some (E kr 0) := hlast' (F ql) (by rw [List.getLast?_map, hlast]; rfl) hx
    subst hb'
    generalize (if E kr 0 = 0 then burstMem c (addrReq c a value.length sz burst) (wReqs c beats) mem else mem) = mem' at hrun
    -- so the response is due
    have hdue : (AxWait.run c (AxMem.idle E kr mem) AxWait.zero (tc.map F)).b = some 0 := by
      obtain ⟨tc', rfl⟩ := List.getLast?_eq_some_iff.1 hlast
      rw [List.map_append, wait_append]
      rw [List.map_append, axRun_append] at hrun
      change AxMem.step c (AxMem.run c (AxMem.idle E kr mem) (tc'.map F)) (F ql) = _ at hrun
      show (AxWait.step c (AxMem.run c (AxMem.idle E kr mem) (tc'.map F)) _ (F ql)).b = some 0
      unfold AxWait.step
      simp only
      rw [hrun]
      rcases hx with hx | hx
      · have : (awStream c).xfer ((F ql).1.1.1, (F ql).2) = true := hx
        simp [this]
      · have : (wStream c).xfer ((F ql).1.1.2, (F ql).2) = true := hx
        simp [this]
    rw [ht] at hp
    have hp2 := (prompt_append N c _ _ _ _ hp).2
    rw [show AxMem.run c (AxMem.idle E kr mem) (tc.map F) = _ from hrun] at hp2
    rcases resp with ⟨n1, n2⟩ | ⟨t', q, n, n1, n2, n3, n4, n5⟩
    · obtain ⟨sb, hsb⟩ := blocked_of_none n1
      refine ⟨fun s' _ => ?_, fun s' h => by rw [hsb] at h; rcases h with ⟨_, h⟩ | ⟨_, h⟩ <;> cases h⟩
      have hbb := (prompt_end hp2).2.2.2.2 tb.length (by
        rw [wait_b c E (kr + 1) mem' _ (tb.map F) _ (fun q hq => (htb q hq).1) (by
          intro q hq
          obtain ⟨y, hy, rfl⟩ := List.mem_map.1 hq
          exact n2 y hy), hdue]
        simp)
      rw [htl, e1, List.length_append]
      omega
    · have hnb : result r ≠ none := by rw [n5]; simp
      refine ⟨fun s' h => absurd (by unfold result; rw [h]) hnb, fun s' h => ?_⟩
      subst n1
      have hb1 : t'.length < N := by
        rw [List.map_append] at hp2
        refine (prompt_end (prompt_append N c _ _ _ _ hp2).1).2.2.2.2 t'.length ?_
        rw [wait_b c E (kr + 1) mem' _ (t'.map F) _ (fun q hq => (htb q (by rw [List.map_append]; exact List.mem_append_left _ hq)).1) (by
          intro q hq
          obtain ⟨y, hy, rfl⟩ := List.mem_map.1 hq
          exact n2 y hy), hdue]
        simp
      refine ⟨?_, ?_⟩
      · rw [htl, e1, List.length_append, List.length_append]
        simp only [List.length_cons, List.length_nil]
        omega
      · rw [ht, wait_append, show AxMem.run c (AxMem.idle E kr mem) (tc.map F) = _ from hrun, List.map_append, wait_append]
        obtain ⟨z1, z2, z3, z4⟩ := htb (F q) (by rw [List.map_append]; exact List.mem_append_right _ (by simp))
        refine wait_zero c _ _ (F q) z2 z3 z4 (.inl ?_) (.inr n3)
        obtain ⟨b2, hb2, _, _⟩ := run_rest c E (kr + 1) mem' (t'.map F) (some (E kr 0)) (fun x hx => (htb x (by rw [List.map_append]; exact List.mem_append_left _ hx)).1)
        rw [hb2, step_rest c E (kr + 1) mem' b2 _ z1]
  · -- one of them is not
    have hboth' : (aw && w) = false := by simpa using hboth
    obtain ⟨e6, e7⟩ := e4 hboth'
    obtain ⟨sb, hsb⟩ := blocked_of_none e7
    refine ⟨fun s' _ => ?_, fun s' h => by rw [hsb] at h; rcases h with ⟨_, h⟩ | ⟨_, h⟩ <;> cases h⟩
    rw [htl]
    cases aw with
    | false =>
      have := la.2 rfl
      rw [af rfl, List.append_nil] at ae
      rw [← ae, lenA] at this
      omega
    | true =>
      cases w with
      | true => cases hboth'
      | false =>
        simp only [Bool.false_eq_true, if_false] at wc
        obtain ⟨wc1, j, wj, wt, _⟩ := wc
        rw [wc1, List.append_nil] at we
        have := length_windows (wStream c) N w1 [] (by simp) (by simpa using hww) wh (by simp)
        rw [wt, List.length_take] at this
        rw [wReqs_length, b2] at wj
        have hj : N * min j (wReqs c beats).length + N ≤ N * value.length := by
          rw [← Nat.mul_succ]
          exact Nat.mul_le_mul_left _ (by omega)
        have e : w1.length = r.1.length := by rw [← we, lenW]
        simp only [List.length_nil] at this
        omega

theorem axRead_live (c : AxCfg) (hc : Standard c) (a : Nat) (ha : a < 2 ^ c.addrW) (length : Int) (size : Option Int) (burst : AxiBurst)
    (sync : Bool) (sz : Nat) (hl : Legal c a length size burst sz) (hlite : c.full = false → sz = c.dataBytes ∧ burst = .incr ∧ length.toNat = 1)
    (s : Sim AxIn AddrOut) (hs : ReadReady sync s) (hg : ∀ i ∈ s.cur :: s.rest, GoodBeat c.dataBytes i) (o : AddrOut × WOut) (ho : o.1.valid = .zero ∧ o.2.valid = .zero)
    (E : Nat → Nat → Nat) (kr : Nat) (mem : Nat → Byte) (N : Nat) :
    let r := axiRead c a length size burst false sync s
    let t := r.1.map (fun q => ((o, q.1), q.2))
    LastRight c (AxMem.idle E kr mem) t → AxMem.Prompt N c (AxMem.idle E kr mem) AxWait.zero t →
    LiveCall c E kr mem ((if sync then 1 else 0) + N + N * length.toNat) t r.2 := by
  intro r t hserve hp
  obtain ⟨h1, h2, h3, k, m, hk, hm, hW⟩ := Legal.facts hl hc ha
  have hr : r = axiReadRun c a length.toNat sz burst false sync s := by
    show axiRead c a length size burst false sync s = _
    rw [axiRead_legal c hc a length size burst false sync sz hl]
  have hspec := axiReadRun_spec c a length.toNat sz m burst false sync h1 h2 hm hW s hs.1 hs.2 hg
  simp only at hspec
  rw [← hr] at hspec
  obtain ⟨t1, t2, ar, e1, e2, e3, e4, e5⟩ := hspec
  have hdec := decode_addrReq c a length.toNat sz k burst h1 hk h3 hlite
  have hlen0 : ((addrReq c a length.toNat sz burst).decode c.dataBytes).2.2.2 = length.toNat := by rw [hdec]
  let F : AddrOut × AxIn → AxAll × AxIn := fun q => ((o, q.1), q.2)
  have ht : t = t1.map F ++ t2.map F := by
    show r.1.map F = _
    rw [e1, List.map_append]
  have htl : t.length = t1.length + t2.length := by rw [ht, List.length_append, List.length_map, List.length_map]
  rw [ht] at hserve hp
  have hw1 : (arStream c).Windows N t1 := by
    have := prompt_ar (prompt_append N c _ _ _ _ hp).1
    simpa [List.map_map, Function.comp_def, F] using this
  have la := length_request e2 hw1
  cases ar with
  | false =>
    obtain ⟨x1, x2⟩ := e4 rfl
    obtain ⟨sb, hsb⟩ := blocked_of_none x2
    refine ⟨fun s' _ => ?_, fun s' h => by rw [hsb] at h; rcases h with ⟨_, h⟩ | ⟨_, h⟩ <;> cases h⟩
    have := la.2 rfl
    rw [htl, x1, List.length_nil]
    omega
  | true =>
    have la' := la.1 rfl
    obtain ⟨pre, q, g1, g2, g3, g4⟩ := Stream.Request.xfers e2
    have hquiet : ∀ x : AddrOut × AxIn, (arStream c).xfer x = false → QuietAt c (F x) := by
      intro x hx
      exact ⟨by simp [F, Stream.xfer, awStream, ho.1], by simp [F, Stream.xfer, wStream, ho.2], hx⟩
    have hxf : ∀ x : AddrOut × AxIn, (arStream c).valid x.1 = false → (arStream c).xfer x = false := by
      intro x hx; simp [Stream.xfer, hx]
    have hstep : (AxMem.idle E kr mem).step c (F q) = ⟨mem, none, [], some (addrReq c a length.toNat sz burst, 0), none, kr, E⟩ := by
      have x1 : (awStream c).xfer (o.1, q.2) = false := by simp [Stream.xfer, awStream, ho.1]
      have x2 : (wStream c).xfer (o.2, q.2) = false := by simp [Stream.xfer, wStream, ho.2]
      have x3 : (arStream c).xfer (q.1, q.2) = true := g3
      simp [AxMem.step, AxMem.idle, AxMem.commit, F, x1, x2, x3, g4]
    have hrunpre : AxMem.run c (AxMem.idle E kr mem) (pre.map F) = AxMem.idle E kr mem := run_idle c E kr mem _ (by
      intro x hx
      obtain ⟨y, hy, rfl⟩ := List.mem_map.1 hx
      exact hquiet y (g2 y hy))
    have hrun1 : AxMem.run c (AxMem.idle E kr mem) (t1.map F) = ⟨mem, none, [], some (addrReq c a length.toNat sz burst, 0), none, kr, E⟩ := by
      rw [g1, List.map_append, axRun_append, hrunpre]
      exact hstep
    have hb : ∀ t : List (AddrOut × AxIn), ∀ q ∈ t.map F, (awStream c).xfer (q.1.1.1, q.2) = false ∧ (wStream c).xfer (q.1.1.2, q.2) = false := by
      intro t q hq
      obtain ⟨y, hy, rfl⟩ := List.mem_map.1 hq
      exact ⟨by simp [F, Stream.xfer, awStream, ho.1], by simp [F, Stream.xfer, wStream, ho.2]⟩
    have hr0 : (AxWait.run c (AxMem.idle E kr mem) AxWait.zero (t1.map F)).r = 0 := by
      rw [g1, List.map_append, wait_append]
      show (AxWait.step c _ _ (F q)).r = 0
      have x3 : (arStream c).xfer ((F q).1.2, (F q).2) = true := g3
      simp [AxWait.step, x3]
    have hb0 := wait_b_none c (t1.map F) (AxMem.idle E kr mem) AxWait.zero rfl (hb t1)
    rw [lastRight_append, hrun1] at hserve
    have hp2 := (prompt_append N c _ _ _ _ hp).2
    rw [hrun1] at hp2
    have hq2 : ∀ x ∈ t2.map F, QuietAt c x := by
      intro x hx
      obtain ⟨y, hy, rfl⟩ := List.mem_map.1 hx
      exact hquiet y (hxf y (e3 y hy))
    have hcount : ∀ t' : List (AddrOut × AxIn), ∀ t'' : List (AddrOut × AxIn), t2 = t' ++ t'' → (∀ q ∈ t', rFire q.2 = true → rLast c q.2 = false) →
        t'.length + 1 ≤ N * length.toNat := by
      intro t' t'' et hnl
      have hs2 := hserve.2
      rw [et, List.map_append] at hs2 hp2
      have hs2' := (lastRight_append c _ _ _).1 hs2
      have hnl' : ∀ q ∈ t'.map F, rFire q.2 = true → rLast c q.2 = false := by
        intro q hq
        obtain ⟨y, hy, rfl⟩ := List.mem_map.1 hq
        exact hnl y hy
      have hq' : ∀ x ∈ t'.map F, QuietAt c x := fun x hx => hq2 x (by rw [et, List.map_append]; exact List.mem_append_left _ hx)
      obtain ⟨w, b2⟩ := wait_beats N c E kr mem _ (t'.map F) 0 _ (by rw [hlen0]; exact h3) hq' hs2'.1 hnl' (prompt_append N c _ _ _ _ hp2).1
      rw [hlen0, Nat.zero_add] at b2
      rw [hr0, List.length_map, ← Nat.mul_succ] at w
      have : N * ((beatsIn (t'.map F)).length.succ) ≤ N * length.toNat := Nat.mul_le_mul_left _ b2
      omega
    rcases e5 with ⟨x1, x2⟩ | ⟨_, hone, _, _, hres⟩
    · obtain ⟨sb, hsb⟩ := blocked_of_none x1
      refine ⟨fun s' _ => ?_, fun s' h => by rw [hsb] at h; rcases h with ⟨_, h⟩ | ⟨_, h⟩ <;> cases h⟩
      have := hcount t2 [] (by simp) x2
      omega
    · have hnb : result r ≠ none := by rw [hres]; simp
      refine ⟨fun s' h => absurd (by unfold result; rw [h]) hnb, fun s' h => ?_⟩
      obtain ⟨t', ql, k1, k2, k3, k4⟩ := hone
      have := hcount t' [ql] k1 k4
      refine ⟨by rw [htl, k1, List.length_append, List.length_singleton]; omega, ?_⟩
      rw [ht, wait_append, hrun1, k1, List.map_append, wait_append]
      refine wait_zero c _ _ (F ql) (by simp [F, awStream, ho.1]) (by simp [F, wStream, ho.2]) (e3 ql (by rw [k1]; simp)) (.inr k2) (.inl ?_)
      exact wait_b_none c (t'.map F) _ _ hb0 (hb t')

theorem LiveCall.mapOk {α β P : Type} {c : AxCfg} {E : Nat → Nat → Nat} {kr : Nat} {mem : Nat → Byte} {cost : Nat} {t : List (AxAll × AxIn)} {e : End AxIn O α} {e' : End AxIn P β}
    (h : LiveCall c E kr mem cost t e) (h1 : ∀ s', e' = .blocked s' → ∃ s'', e = .blocked s'') (h2 : ∀ s', Ended e' s' → ∃ s'', Ended e s'') :
    LiveCall c E kr mem cost t e' := by
  refine ⟨fun s' hb => ?_, fun s' ho => ?_⟩
  · obtain ⟨s'', hb⟩ := h1 s' hb
    exact h.1 s'' hb
  · obtain ⟨s'', ho⟩ := h2 s' ho
    exact h.2 s'' ho

theorem edges_blocked (n : Nat) : ∀ (s s' : Sim I O), ((edges n : M I O Unit) s).2 = .blocked s' → ((edges n : M I O Unit) s).1.length < n := by
  induction n with
  | zero => intro s s' h; cases h
  | succ n ih =>
    intro s s'
    rw [edges]
    cases h : s.rest with
    | nil => rw [bind_awaitEdge_nil _ _ h]; intro _; exact Nat.succ_pos n
    | cons i r =>
      rw [bind_awaitEdge_cons _ _ i r h]
      intro e
      exact Nat.succ_lt_succ (ih _ s' e)

theorem wait_still (c : AxCfg) (E : Nat → Nat → Nat) (kr : Nat) (mem : Nat → Byte) (o : AxAll) (ho : o.1.1.valid = .zero ∧ o.1.2.valid = .zero ∧ o.2.valid = .zero) (t : List (AxAll × AxIn))
    (h : ∀ q ∈ t, q.1 = o) : AxWait.run c (AxMem.idle E kr mem) AxWait.zero t = AxWait.zero := by
  induction t with
  | nil => rfl
  | cons q t ih =>
    have hq := h q (by simp)
    have v1 : (awStream c).valid q.1.1.1 = false := by simp [awStream, hq, ho.1]
    have v2 : (wStream c).valid q.1.1.2 = false := by simp [wStream, hq, ho.2.1]
    have v3 : (arStream c).valid q.1.2 = false := by simp [arStream, hq, ho.2.2]
    have hqu : QuietAt c q := ⟨by simp [Stream.xfer, v1], by simp [Stream.xfer, v2], by simp [Stream.xfer, v3]⟩
    have hst := step_idle c E kr mem q hqu
    show AxWait.run c ((AxMem.idle E kr mem).step c q) (AxWait.step c _ _ q) t = _
    rw [wait_zero c _ AxWait.zero q v1 v2 v3 (.inl (by rw [hst]; rfl)) (.inl rfl), hst]
    exact ih (fun x hx => h x (List.mem_cons_of_mem _ hx))

theorem axStep_live (c : AxCfg) (hc : Standard c) (op : AxOp) (hop : AxOpOk c op) (s : Sim AxIn AxAll) (hs : AxReady s)
    (hg : ∀ i ∈ s.cur :: s.rest, GoodBeat c.dataBytes i ∧ GoodResp i) (E : Nat → Nat → Nat) (kr : Nat) (mem : Nat → Byte) (N : Nat) (hserve : LastRight c (AxMem.idle E kr mem) (axStep c op s).1)
    (hp : AxMem.Prompt N c (AxMem.idle E kr mem) AxWait.zero (axStep c op s).1) : LiveCall c E kr mem (axCost N op) (axStep c op s).1 (axStep c op s).2 := by
  have hws : ∀ sync, WriteReady sync ⟨s.phase, s.out.1, s.prev, s.cur, s.rest⟩ := fun sync => ⟨.inr hs.1, hs.2.1, hs.2.2.1⟩
  have hrs : ∀ sync, ReadReady sync ⟨s.phase, s.out.2, s.prev, s.cur, s.rest⟩ := fun sync => ⟨.inr hs.1, hs.2.2.2⟩
  cases op with
  | write a v size burst be al dl sync =>
    obtain ⟨o1, o2, o3, o4, o5, o6⟩ := hop
    have key := axWrite_live c hc a o2 v size burst be o3 al dl o4 sync _ o5 (by rw [o1]; intro h; cases h) _ (hws sync) (fun i hi => (hg i hi).2) s.out.2 hs.2.2.2 E kr mem N
    have e : axStep c (.write a v size burst be al dl sync) s = Res.andThen (onWrite (axiWrite c a v size burst be al dl sync) s) (fun _ => pure []) := rfl
    rw [e] at hp ⊢
    unfold onWrite at hp ⊢
    simp only at key hp ⊢
    generalize axiWrite c a v size burst be al dl sync ⟨s.phase, s.out.1, s.prev, s.cur, s.rest⟩ = x at *
    obtain ⟨t, e⟩ := x
    cases e with
    | ok u s' =>
      have e1 : ∀ l : List (AxAll × AxIn), l ++ [] = l := List.append_nil
      change AxMem.Prompt N c _ _ (_ ++ []) at hp
      rw [e1] at hp
      show LiveCall c E kr mem _ (_ ++ []) _
      rw [e1]
      exact (key hp).mapOk (fun s' h => by cases h) (fun _ _ => ⟨_, .inl ⟨_, rfl⟩⟩)
    | err e s' => exact (key hp).mapOk (fun s' h => by cases h) (fun _ h => by rcases h with ⟨_, h⟩ | ⟨n, h⟩ <;> cases h; exact ⟨_, .inr ⟨n, rfl⟩⟩)
    | blocked s' => exact (key hp).mapOk (fun s' h => ⟨_, rfl⟩) (fun _ h => by rcases h with ⟨_, h⟩ | ⟨n, h⟩ <;> cases h)
  | liteWrite a v be al dl sync =>
    obtain ⟨o1, o2⟩ := hop
    have hl : Legal c a ([v] : List Nat).length none .incr c.dataBytes := legal_single c hc a
    have key := axWrite_live c hc a o2 [v] none .incr [be] (by simp) al dl (.inr rfl) sync _ hl (fun _ => ⟨rfl, rfl, rfl⟩) _ (hws sync) (fun i hi => (hg i hi).2) s.out.2 hs.2.2.2 E kr mem N
    have e : axStep c (.liteWrite a v be al dl sync) s = Res.andThen (onWrite (liteWrite c a (.inl v) be al dl sync) s) (fun _ => pure []) := rfl
    rw [e] at hp ⊢
    unfold onWrite at hp ⊢
    simp only at key hp ⊢
    have e2 : ∀ u, liteWrite c a (.inl v) be al dl sync u = Res.andThen (axiWrite c a [v] none .incr [be] al dl sync u) (fun _ => ofExcept (createBinaryInt 0 2 >>= fun v => .ok v.bits)) := fun _ => rfl
    rw [e2] at hp ⊢
    rw [show N * ([v] : List Nat).length = N by simp] at key
    generalize axiWrite c a [v] none .incr [be] al dl sync ⟨s.phase, s.out.1, s.prev, s.cur, s.rest⟩ = x at *
    obtain ⟨t, e⟩ := x
    cases e with
    | ok u s' =>
      change AxMem.Prompt N c _ _ (List.map _ (t ++ []) ++ []) at hp
      rw [List.append_nil, List.append_nil] at hp
      show LiveCall c E kr mem _ (List.map _ (t ++ []) ++ []) _
      rw [List.append_nil, List.append_nil]
      exact (key hp).mapOk (fun s' h => by cases h) (fun _ _ => ⟨_, .inl ⟨_, rfl⟩⟩)
    | err e s' => exact (key hp).mapOk (fun s' h => by cases h) (fun _ h => by rcases h with ⟨_, h⟩ | ⟨n, h⟩ <;> cases h; exact ⟨_, .inr ⟨n, rfl⟩⟩)
    | blocked s' => exact (key hp).mapOk (fun s' h => ⟨_, rfl⟩) (fun _ h => by rcases h with ⟨_, h⟩ | ⟨n, h⟩ <;> cases h)
  | read a len size burst sync =>
    obtain ⟨o1, o2, o5, o6⟩ := hop
    have key := axRead_live c hc a o2 len size burst sync _ o5 (by rw [o1]; intro h; cases h) _ (hrs sync) (fun i hi => (hg i hi).1) s.out.1 ⟨hs.2.1, hs.2.2.1⟩ E kr mem N
    have e : axStep c (.read a len size burst sync) s = Res.andThen (onRead (axiRead c a len size burst false sync) s) (fun d => pure (d.elim id (fun l => l.map Prod.fst))) := rfl
    rw [e] at hp hserve ⊢
    unfold onRead at hp hserve ⊢
    simp only at key hp hserve ⊢
    generalize axiRead c a len size burst false sync ⟨s.phase, s.out.2, s.prev, s.cur, s.rest⟩ = x at *
    obtain ⟨t, e⟩ := x
    cases e with
    | ok u s' =>
      change AxMem.Prompt N c _ _ (_ ++ []) at hp
      change LastRight c _ (_ ++ []) at hserve
      rw [List.append_nil] at hp hserve
      show LiveCall c E kr mem _ (_ ++ []) _
      rw [List.append_nil]
      exact (key hserve hp).mapOk (fun s' h => by cases h) (fun _ _ => ⟨_, .inl ⟨_, rfl⟩⟩)
    | err e s' => exact (key hserve hp).mapOk (fun s' h => by cases h) (fun _ h => by rcases h with ⟨_, h⟩ | ⟨n, h⟩ <;> cases h; exact ⟨_, .inr ⟨n, rfl⟩⟩)
    | blocked s' => exact (key hserve hp).mapOk (fun s' h => ⟨_, rfl⟩) (fun _ h => by rcases h with ⟨_, h⟩ | ⟨n, h⟩ <;> cases h)
  | liteRead a sync =>
    obtain ⟨o1, o2⟩ := hop
    have hl : Legal c a 1 none .incr c.dataBytes := legal_single c hc a
    have key := axRead_live c hc a o2 1 none .incr sync _ hl (fun _ => ⟨rfl, rfl, rfl⟩) _ (hrs sync) (fun i hi => (hg i hi).1) s.out.1 ⟨hs.2.1, hs.2.2.1⟩ E kr mem N
    have e : axStep c (.liteRead a sync) s = Res.andThen (onRead (liteRead c a sync) s) (fun d => pure [d]) := rfl
    rw [e] at hp hserve ⊢
    unfold onRead at hp hserve ⊢
    simp only at key hp hserve ⊢
    have e2 : ∀ u, liteRead c a sync u = Res.andThen (axiRead c a 1 none .incr false sync u) liteFirst := fun _ => rfl
    rw [e2] at hp hserve ⊢
    rw [show N * (1 : Int).toNat = N by simp] at key
    generalize axiRead c a 1 none .incr false sync ⟨s.phase, s.out.2, s.prev, s.cur, s.rest⟩ = x at *
    obtain ⟨t, e⟩ := x
    cases e with
    | ok u s' =>
      cases u with
      | inl l =>
        cases l with
        | nil =>
          change AxMem.Prompt N c _ _ (List.map _ (t ++ [])) at hp
          change LastRight c _ (List.map _ (t ++ [])) at hserve
          rw [List.append_nil] at hp hserve
          show LiveCall c E kr mem _ (List.map _ (t ++ [])) _
          rw [List.append_nil]
          exact (key hserve hp).mapOk (fun s' h => by cases h) (fun _ _ => ⟨_, .inl ⟨_, rfl⟩⟩)
        | cons d l =>
          change AxMem.Prompt N c _ _ (List.map _ (t ++ []) ++ []) at hp
          change LastRight c _ (List.map _ (t ++ []) ++ []) at hserve
          rw [List.append_nil, List.append_nil] at hp hserve
          show LiveCall c E kr mem _ (List.map _ (t ++ []) ++ []) _
          rw [List.append_nil, List.append_nil]
          exact (key hserve hp).mapOk (fun s' h => by cases h) (fun _ _ => ⟨_, .inl ⟨_, rfl⟩⟩)
      | inr l =>
        change AxMem.Prompt N c _ _ (List.map _ (t ++ [])) at hp
        change LastRight c _ (List.map _ (t ++ [])) at hserve
        rw [List.append_nil] at hp hserve
        show LiveCall c E kr mem _ (List.map _ (t ++ [])) _
        rw [List.append_nil]
        exact (key hserve hp).mapOk (fun s' h => by cases h) (fun _ _ => ⟨_, .inl ⟨_, rfl⟩⟩)
    | err e s' => exact (key hserve hp).mapOk (fun s' h => by cases h) (fun _ h => by rcases h with ⟨_, h⟩ | ⟨n, h⟩ <;> cases h; exact ⟨_, .inr ⟨n, rfl⟩⟩)
    | blocked s' => exact (key hserve hp).mapOk (fun s' h => ⟨_, rfl⟩) (fun _ h => by rcases h with ⟨_, h⟩ | ⟨n, h⟩ <;> cases h)
  | pause n =>
    obtain ⟨h1, h2, h3⟩ := edges_const (I := AxIn) n s hs.1
    have e : axStep c (.pause n) s = Res.andThen ((edges n : M AxIn AxAll Unit) s) (fun _ => pure []) := rfl
    rw [e]
    have hq : ∀ q ∈ ((edges n : M AxIn AxAll Unit) s).1, q.1 = s.out := h1
    have hblk := edges_blocked (O := AxAll) (I := AxIn) n s
    generalize (edges n : M AxIn AxAll Unit) s = x at *
    obtain ⟨t, e⟩ := x
    rcases h3 with ⟨u, h3, h4, h5⟩ | ⟨u, h3⟩
    · simp only at h3
      subst h3
      show LiveCall c E kr mem n (t ++ []) _
      rw [List.append_nil]
      refine ⟨fun s' h => (by cases h), fun _ _ => ⟨h2, ?_⟩⟩
      exact wait_still c E kr mem s.out ⟨hs.2.1, hs.2.2.1, hs.2.2.2⟩ t hq
    · simp only at h3
      subst h3
      exact ⟨fun _ _ => hblk u rfl, fun _ h => (by rcases h with ⟨_, h⟩ | ⟨_, h⟩ <;> cases h)⟩

/-! ### A test -/

theorem onWrite_good {α : Type} {x : M AxIn (AddrOut × WOut) α} (h : Good x) : Good (onWrite x) := by
  intro s
  have := h ⟨s.phase, s.out.1, s.prev, s.cur, s.rest⟩
  unfold onWrite
  simp only
  generalize x ⟨s.phase, s.out.1, s.prev, s.cur, s.rest⟩ = X at *
  obtain ⟨t, e⟩ := X
  obtain ⟨h1, h2⟩ := this
  refine ⟨?_, ?_⟩
  · simp only [List.map_map, Function.comp_def]
    cases e <;> exact h1
  · intro s' hs
    cases e with
    | ok _ _ => cases hs
    | err _ _ => cases hs
    | blocked u => cases hs; exact h2 u rfl

theorem onRead_good {α : Type} {x : M AxIn AddrOut α} (h : Good x) : Good (onRead x) := by
  intro s
  have := h ⟨s.phase, s.out.2, s.prev, s.cur, s.rest⟩
  unfold onRead
  simp only
  generalize x ⟨s.phase, s.out.2, s.prev, s.cur, s.rest⟩ = X at *
  obtain ⟨t, e⟩ := X
  obtain ⟨h1, h2⟩ := this
  refine ⟨?_, ?_⟩
  · simp only [List.map_map, Function.comp_def]
    cases e <;> exact h1
  · intro s' hs
    cases e with
    | ok _ _ => cases hs
    | err _ _ => cases hs
    | blocked u => cases hs; exact h2 u rfl

theorem axiWrite_good (c : AxCfg) (a : Nat) (v : List Nat) (size : Option Int) (burst : AxiBurst) (be : List (Option Nat)) (al dl : Nat) (sync : Bool) :
    Good (axiWrite c a v size burst be al dl sync) :=
  Good.bind (Good.ofExcept _) fun _ => axiWriteRun_good _ _ _ _ _ _ _ _ _

theorem axiRead_good (c : AxCfg) (a : Nat) (len : Int) (size : Option Int) (burst : AxiBurst) (rr sync : Bool) : Good (axiRead c a len size burst rr sync) :=
  Good.bind (Good.ofExcept _) fun _ => axiReadRun_good _ _ _ _ _ _ _

theorem liteFirst_good (d : List LogicArray ⊕ List (LogicArray × Nat)) : Good (liteFirst d) := by
  unfold liteFirst
  split
  · exact Good.pure _
  · exact Good.raise _

theorem axStep_good (c : AxCfg) (op : AxOp) : Good (axStep c op) := by
  cases op with
  | write => exact Good.bind (onWrite_good (axiWrite_good _ _ _ _ _ _ _ _ _)) fun _ => Good.pure _
  | read => exact Good.bind (onRead_good (axiRead_good _ _ _ _ _ _ _)) fun _ => Good.pure _
  | liteWrite => exact Good.bind (onWrite_good (Good.bind (axiWrite_good _ _ _ _ _ _ _ _ _) fun _ => Good.ofExcept _)) fun _ => Good.pure _
  | liteRead => exact Good.bind (onRead_good (Good.bind (axiRead_good _ _ _ _ _ _ _) fun _ => liteFirst_good _)) fun _ => Good.pure _
  | pause n => exact Good.bind (Good.edges n) fun _ => Good.pure _

theorem axUse_live (c : AxCfg) (hc : Standard c) (N : Nat) (E : Nat → Nat → Nat) (ops : List AxOp) : ∀ (s : Sim AxIn AxAll) (kr : Nat) (mem : Nat → Byte),
    (∀ op ∈ ops, AxOpOk c op) → AxReady s →
    (∀ i ∈ s.cur :: s.rest, GoodBeat c.dataBytes i ∧ GoodResp i) → AxMem.Serves c (AxMem.idle E kr mem) (axUse c ops s).2.1 →
    AxMem.Prompt N c (AxMem.idle E kr mem) AxWait.zero (axUse c ops s).2.1 → (ops.map (axCost N)).sum ≤ s.rest.length →
    ∃ s', (axUse c ops s).2.2 = .ok () s' ∧ s.rest.length = (axUse c ops s).2.1.length + s'.rest.length ∧ (axUse c ops s).2.1.length ≤ (ops.map (axCost N)).sum := by
  induction ops with
  | nil =>
    intro s kr mem _ hs hg hserve hp hlen
    exact ⟨s, rfl, (Nat.zero_add _).symm, Nat.le_refl 0⟩
  | cons op ops ih =>
    intro s kr mem hops hs hg hserve hp hlen
    obtain ⟨h0, h⟩ := axUse_step c hc op ops (hops op (by simp)) s hs hg E kr mem hserve
    have hl := axStep_live c hc op (hops op (by simp)) s hs hg E kr mem N (lastRight_of_serves h0)
    obtain ⟨g1, g2⟩ := axStep_good c op s
    have g1' := congrArg List.length g1
    simp only [List.length_cons, List.length_append, List.length_map] at g1'
    rw [List.map_cons, List.sum_cons] at hlen ⊢
    rcases h with ⟨s', h⟩ | ⟨s', h1, h2, h3, h4⟩
    · rw [axUse_blocked c op ops s (axStep c op s).1 s' (by rw [← h])] at hp
      have hlt := (hl hp).1 s' h
      have h0' : s'.rest = [] := g2 s' h
      rw [h] at g1'
      change s.rest.length + 1 = (axStep c op s).1.length + (s'.rest.length + 1) at g1'
      rw [h0', List.length_nil] at g1'
      omega
    · have e := axUse_cons c op ops s (axStep c op s).1 _ s' (by rw [← h1]) (fun e he => axOutcome_err he)
      rw [e] at hserve hp ⊢
      simp only at hserve hp ⊢
      have hp' := prompt_append N c _ _ _ _ hp
      have hend : Ended (axStep c op s).2 s' := by
        rw [h1]
        cases ho : axOutcome c (E kr) op mem with
        | ok d => exact .inl ⟨d, rfl⟩
        | error e => obtain ⟨n, rfl⟩ := axOutcome_err ho; exact .inr ⟨n, rfl⟩
      obtain ⟨l1, l2⟩ := (hl hp'.1).2 s' hend
      rw [serves_append, h3] at hserve
      rw [l2, h3] at hp'
      have g1'' : s.rest.length + 1 = (axStep c op s).1.length + (s'.rest.length + 1) := by
        rw [g1', h1]
        cases axOutcome c (E kr) op mem <;> rfl
      obtain ⟨s2, j1, j2, j3⟩ := ih s' (kr + axRequests op) (axNext c (E kr) op mem) (fun o ho => hops o (by simp [ho])) h2 (fun i hi => hg i (h4 i hi)) hserve.2 hp'.2 (by omega)
      refine ⟨s2, j1, ?_, ?_⟩ <;> rw [List.length_append] <;> omega

end CocotbBus
