import Verif.Spec.Xgmii
import Verif.Proof.XgmiiLanes

namespace CocotbBus
open Coro Spec

/-- the lanes assigned so far -/
def Part (c : XgCfg) (L : List Lane) (s : Sim Unit XgOut) : Prop :=
  L.length ≤ c.nbytes ∧ Rep c (L ++ List.replicate (c.nbytes - L.length) (0#8, false)) s.out.integer

/-- nothing but the integer has changed -/
def Upd (s s' : Sim Unit XgOut) : Prop := ∃ w, s' = { s with out := { s.out with integer := w } }

theorem Upd.refl (s : Sim Unit XgOut) : Upd s s := ⟨_, rfl⟩
theorem Upd.trans {s s' s'' : Sim Unit XgOut} (h : Upd s s') (h' : Upd s' s'') : Upd s s'' := by
  obtain ⟨w, rfl⟩ := h
  obtain ⟨w', rfl⟩ := h'
  exact ⟨w', rfl⟩

/-- a silent part of the driver that assigns lanes -/
def Assigns {α : Type} (c : XgCfg) (x : M Unit XgOut α) (a : α) (L L' : List Lane) : Prop :=
  ∀ s, Part c L s → ∃ s', x s = ([], .ok a s') ∧ Upd s s' ∧ Part c L' s'

theorem Assigns.bind {α β : Type} {c : XgCfg} {x : M Unit XgOut α} {a : α} {f : α → M Unit XgOut β} {b : β} {L L' L'' : List Lane}
    (h : Assigns c x a L L') (h' : Assigns c (f a) b L' L'') : Assigns c (x >>= f) b L L'' := by
  intro s hs
  obtain ⟨s', h1, h2, h3⟩ := h s hs
  obtain ⟨s'', h4, h5, h6⟩ := h' s' h3
  exact ⟨s'', by rw [bind_silent _ _ _ _ _ h1, h4], h2.trans h5, h6⟩

theorem Assigns.pure {α : Type} {c : XgCfg} (a : α) (L : List Lane) : Assigns c (pure a) a L L := fun s hs => ⟨s, rfl, Upd.refl s, hs⟩

theorem xgSet_assigns (c : XgCfg) (L : List Lane) (b : Byte) (f : Bool) (h : L.length < c.nbytes) :
    Assigns c (xgSet c L.length b f) () L (L ++ [(b, f)]) := by
  intro s hs
  obtain ⟨k, hk⟩ : ∃ k, c.nbytes - L.length = k + 1 := ⟨c.nbytes - L.length - 1, by omega⟩
  have hr := hs.2
  rw [hk, List.replicate_succ] at hr
  obtain ⟨w', h1, h2⟩ := rep_set c L _ _ b f hr
  refine ⟨{ s with out := { s.out with integer := w' } }, ?_, ⟨w', rfl⟩, by simp; omega, ?_⟩
  · unfold xgSet
    rw [bind_getOut, h1, bind_ofExcept_ok]
    rfl
  · have : c.nbytes - (L ++ [(b, f)]).length = k := by simp; omega
    rw [this]
    simpa using h2

theorem xgFor_assigns (c : XgCfg) (g : Nat → Lane) (f : Nat → M Unit XgOut Unit) (k : Nat) : ∀ (L : List Lane), L.length + k ≤ c.nbytes →
    (∀ L' : List Lane, L.length ≤ L'.length → L'.length < L.length + k → Assigns c (f L'.length) () L' (L' ++ [g L'.length])) →
    Assigns c (xgFor (List.range' L.length k) f) () L (L ++ (List.range' L.length k).map g) := by
  induction k with
  | zero =>
    intro L _ _
    simp only [List.range'_zero, List.map_nil, List.append_nil]
    exact Assigns.pure () L
  | succ k ih =>
    intro L hL hf
    rw [List.range'_succ]
    simp only [List.map_cons]
    have h1 := hf L (by omega) (by omega)
    have h2 := ih (L ++ [g L.length]) (by simp; omega) (fun L' ha hb => hf L' (by simp at ha; omega) (by simp at hb; omega))
    have hlen : (L ++ [g L.length]).length = L.length + 1 := by simp
    rw [hlen] at h2
    have : L ++ g L.length :: (List.range' (L.length + 1) k).map g = (L ++ [g L.length]) ++ (List.range' (L.length + 1) k).map g := by simp
    rw [this]
    exact Assigns.bind h1 h2

theorem map_const_range' (i k : Nat) (l : Lane) : (List.range' i k).map (fun _ => l) = List.replicate k l := by
  induction k generalizing i with
  | zero => rfl
  | succ k ih => rw [List.range'_succ, List.map_cons, ih, List.replicate_succ]

theorem xgIdle_assigns (c : XgCfg) : Assigns c (xgFor (List.range c.nbytes) (fun i => xgSet c i xgIdle true)) () [] (List.replicate c.nbytes (xgIdle, true)) := by
  have := xgFor_assigns c (fun _ => (xgIdle, true)) (fun i => xgSet c i xgIdle true) c.nbytes [] (by simp)
    (fun L' _ h => xgSet_assigns c L' _ _ (by simpa using h))
  rw [map_const_range', List.length_nil, ← List.range_eq_range', List.nil_append] at this
  exact this

theorem xgTerm_assigns (c : XgCfg) (L : List Lane) (h : L.length < c.nbytes) :
    Assigns c (xgTerm c L.length) () L (L ++ (xgTerminate, true) :: List.replicate (c.nbytes - L.length - 1) (xgIdle, true)) := by
  unfold xgTerm
  refine Assigns.bind (xgSet_assigns c L _ _ h) ?_
  by_cases h1 : L.length + 1 < c.nbytes
  · have := xgFor_assigns c (fun _ => (xgIdle, true)) (fun i => xgSet c i xgIdle true) (c.nbytes - (L.length + 1)) (L ++ [(xgTerminate, true)])
      (by simp; omega) (fun L' _ hb => xgSet_assigns c L' _ _ (by simp at hb; omega))
    have hlen : (L ++ [((xgTerminate, true) : Lane)]).length = L.length + 1 := by simp
    rw [map_const_range', hlen] at this
    simp only [Coro.when, h1, decide_true, if_true]
    rw [show c.nbytes - L.length - 1 = c.nbytes - (L.length + 1) by omega]
    simpa using this
  · simp only [Coro.when, h1, decide_false, Bool.false_eq_true, if_false]
    rw [show c.nbytes - L.length - 1 = 0 by omega]
    exact Assigns.pure () _

theorem xgData_assigns (c : XgCfg) (L : List Lane) (pkt : Bytes) (k : Nat) (b : Byte) (hk : pkt[k]? = some b) (h : L.length < c.nbytes) :
    Assigns c (xgData c L.length pkt k) () L (L ++ [dataLane b]) := by
  unfold xgData
  rw [hk]
  exact xgSet_assigns c L b false h

theorem xgFirst_assigns (c : XgCfg) (pkt : Bytes) (hn : 0 < c.nbytes) (hl : c.nbytes - 1 ≤ pkt.length) :
    Assigns c (xgSet c 0 xgStart true >>= fun _ => xgFor (List.range' 1 (c.nbytes - 1)) (fun i => xgData c i pkt (i - 1))) () []
      ((xgStart, true) :: (pkt.take (c.nbytes - 1)).map dataLane) := by
  refine Assigns.bind (xgSet_assigns c [] _ _ hn) ?_
  have := xgFor_assigns c (fun i => dataLane (pkt[i - 1]?.getD 0)) (fun i => xgData c i pkt (i - 1)) (c.nbytes - 1) [(xgStart, true)]
    (by simp; omega) (fun L' ha hb => by
      simp only [List.length_cons, List.length_nil, Nat.zero_add] at ha hb
      have hlt : L'.length - 1 < pkt.length := by omega
      have hg : pkt[L'.length - 1]? = some pkt[L'.length - 1] := List.getElem?_eq_getElem hlt
      rw [hg, Option.getD_some]
      exact xgData_assigns c L' pkt _ _ hg (by omega))
  have hmap : (List.range' 1 (c.nbytes - 1)).map (fun i => dataLane (pkt[i - 1]?.getD 0)) = (pkt.take (c.nbytes - 1)).map dataLane := by
    apply List.ext_getElem
    · simp; omega
    · intro i h1 h2
      simp at h1 h2
      have : i < pkt.length := by omega
      simp [this]
  simp only [List.length_cons, List.length_nil, Nat.zero_add] at this
  rw [hmap] at this
  exact this

theorem xgFill_assigns (c : XgCfg) (pkt : Bytes) (k : Nat) : ∀ i, i + k = c.nbytes → i ≤ pkt.length →
    Assigns c (xgFill c pkt k i) (decide (pkt.length < c.nbytes)) ((pkt.take i).map dataLane)
      (if pkt.length < c.nbytes then pkt.map dataLane ++ (xgTerminate, true) :: List.replicate (c.nbytes - pkt.length - 1) (xgIdle, true)
        else (pkt.take c.nbytes).map dataLane) := by
  induction k with
  | zero =>
    intro i hi hl
    have hge : ¬ pkt.length < c.nbytes := by omega
    have hin : i = c.nbytes := by omega
    rw [if_neg hge, hin]
    simp only [hge, decide_false]
    exact Assigns.pure false _
  | succ k ih =>
    intro i hi hl
    have hlen : ((pkt.take i).map dataLane).length = i := by simp; omega
    rw [xgFill]
    by_cases he : i = pkt.length
    · rw [if_pos he]
      have hlt : pkt.length < c.nbytes := by omega
      rw [if_pos hlt]
      simp only [hlt, decide_true]
      have h1 := xgTerm_assigns c ((pkt.take i).map dataLane) (by omega)
      rw [hlen] at h1
      subst he
      rw [List.take_length] at h1 ⊢
      exact Assigns.bind h1 (Assigns.pure true _)
    · rw [if_neg he]
      have hg : pkt[i]? = some pkt[i] := List.getElem?_eq_getElem (by omega)
      have h1 := xgData_assigns c ((pkt.take i).map dataLane) pkt i _ hg (by omega)
      rw [hlen] at h1
      refine Assigns.bind h1 ?_
      have : (pkt.take i).map dataLane ++ [dataLane pkt[i]] = (pkt.take (i + 1)).map dataLane := by
        rw [List.take_add_one, hg, List.map_append]; rfl
      rw [this]
      exact ih (i + 1) (by omega) (by omega)

/-! ### Words on the bus -/

/-- the records show these words -/
def XgShows (c : XgCfg) (t : List (XgOut × Unit)) (ws : List (List Lane)) : Prop := t.map (fun r => xgLanes c r.1.signal) = ws.map .ok

theorem XgShows.append {c : XgCfg} {t t' : List (XgOut × Unit)} {ws ws' : List (List Lane)} (h : XgShows c t ws) (h' : XgShows c t' ws') : XgShows c (t ++ t') (ws ++ ws') := by
  unfold XgShows at *
  rw [List.map_append, List.map_append, h, h']

/-- a part of the driver shows these words; if time ends before, the first of them -/
def Emits {α : Type} (c : XgCfg) (r : Res Unit XgOut α) (ws : List (List Lane)) (post : α → Sim Unit XgOut → Prop) : Prop :=
  (∃ t a s', r = (t, .ok a s') ∧ XgShows c t ws ∧ post a s') ∨ (∃ t s' ws', r = (t, .blocked s') ∧ XgShows c t ws' ∧ ws' <+: ws)

theorem Emits.bind {α β : Type} {c : XgCfg} {x : M Unit XgOut α} {f : α → M Unit XgOut β} {s : Sim Unit XgOut} {ws ws' : List (List Lane)}
    {post : α → Sim Unit XgOut → Prop} {post' : β → Sim Unit XgOut → Prop} (h : Emits c (x s) ws post)
    (h' : ∀ a s', post a s' → Emits c (f a s') ws' post') : Emits c ((x >>= f) s) (ws ++ ws') post' := by
  rw [bind_run]
  rcases h with ⟨t, a, s', h1, h2, h3⟩ | ⟨t, s', w1, h1, h2, h3⟩
  · rw [h1, andThen_ok]
    rcases h' a s' h3 with ⟨t', b, s'', h4, h5, h6⟩ | ⟨t', s'', w2, h4, h5, h6⟩
    · left
      exact ⟨t ++ t', b, s'', by rw [h4], h2.append h5, h6⟩
    · right
      exact ⟨t ++ t', s'', ws ++ w2, by rw [h4], h2.append h5, (List.prefix_append_right_inj ws).2 h6⟩
  · rw [h1, andThen_blocked]
    exact .inr ⟨t, s', w1, rfl, h2, h3.trans (List.prefix_append _ _)⟩

theorem Emits.silent {α : Type} {c : XgCfg} {a : α} {s : Sim Unit XgOut} {post : α → Sim Unit XgOut → Prop} (h : post a s) : Emits c ([], .ok a s) [] post :=
  .inl ⟨[], a, s, rfl, rfl, h⟩

theorem Emits.mono {α : Type} {c : XgCfg} {r : Res Unit XgOut α} {ws : List (List Lane)} {post post' : α → Sim Unit XgOut → Prop}
    (h : Emits c r ws post) (hp : ∀ a s, post a s → post' a s) : Emits c r ws post' := by
  rcases h with ⟨t, a, s', h1, h2, h3⟩ | h
  · exact .inl ⟨t, a, s', h1, h2, hp a s' h3⟩
  · exact .inr h

/-- the driver between two words: nothing assigned, and not in the ReadOnly phase -/
def Clean (c : XgCfg) (s : Sim Unit XgOut) : Prop := s.phase ≠ .ro ∧ Part c [] s

/-- the configuration is one the driver can work with -/
structure XgOk (c : XgCfg) : Prop where
  imported : c.imported = true
  width : c.width = c.nbytes * 9
  pos : 0 < c.nbytes

theorem part_nil_of_zero (c : XgCfg) (s : Sim Unit XgOut) (h : s.out.integer = 0) : Part c [] s := by
  refine ⟨by simp, ?_⟩
  rw [h]
  simpa using rep_zero c

theorem xgDrive_run (c : XgCfg) (hc : XgOk c) (L : List Lane) (s : Sim Unit XgOut) (hp : s.phase ≠ .ro) (hs : Part c L s) (hl : L.length = c.nbytes) :
    ∃ v, xgDrive c s = ([], .ok () { s with out := { signal := v, integer := 0 } }) ∧ xgLanes c v = .ok L := by
  have hr := hs.2
  rw [hl, Nat.sub_self, List.replicate_zero, List.append_nil] at hr
  refine ⟨natToBits (c.nbytes * 9) s.out.integer, ?_, rep_decode c L _ hr⟩
  have hv : xgValue c s = ([], .ok (.array (natToBits (c.nbytes * 9) s.out.integer)) { s with out := { s.out with integer := 0 } }) := by
    unfold xgValue
    rw [hc.imported]
    simp only [Bool.not_true, Bool.false_eq_true, if_false]
    rw [bind_getOut]
    have : createBinaryInt s.out.integer (c.nbytes * 9) = .ok (.array (natToBits (c.nbytes * 9) s.out.integer)) := by
      unfold createBinaryInt
      rw [if_neg (by omega), if_pos hr.lt]
    rw [this, bind_ofExcept_ok, bind_setPy]
    rfl
  unfold xgDrive
  rw [bind_silent _ _ _ _ _ hv]
  simp only [natToBits_length, hc.width, if_true]
  rw [write_ok _ _ (by exact hp)]

/-- assign all lanes, drive the word, wait for the edge -/
theorem word_emits {α : Type} (c : XgCfg) (hc : XgOk c) (x : M Unit XgOut α) (a : α) (L : List Lane) (hl : L.length = c.nbytes) (hx : Assigns c x a [] L)
    (s : Sim Unit XgOut) (hs : Clean c s) :
    Emits c ((x >>= fun a => xgDrive c >>= fun _ => awaitEdge >>= fun _ => pure a) s) [L] (fun b s' => b = a ∧ Clean c s' ∧ xgLanes c s'.out.signal = .ok L) := by
  obtain ⟨s1, h1, ⟨w, rfl⟩, h3⟩ := hx s hs.2
  obtain ⟨v, h4, h5⟩ := xgDrive_run c hc L _ (by exact hs.1) h3 hl
  rw [bind_silent _ _ _ _ _ h1, bind_silent _ _ _ _ _ h4]
  cases hr : s.rest with
  | nil =>
    rw [bind_awaitEdge_nil _ _ rfl]
    exact .inr ⟨[], _, [], rfl, rfl, List.nil_prefix⟩
  | cons i r =>
    rw [bind_awaitEdge_cons _ _ i r rfl]
    refine .inl ⟨_, _, _, rfl, ?_, rfl, ⟨by simp, part_nil_of_zero c _ rfl⟩, h5⟩
    show [xgLanes c v] = [Except.ok L]
    rw [h5]

theorem word_emits_unit (c : XgCfg) (hc : XgOk c) (x : M Unit XgOut Unit) (L : List Lane) (hl : L.length = c.nbytes) (hx : Assigns c x () [] L)
    (s : Sim Unit XgOut) (hs : Clean c s) :
    Emits c ((x >>= fun _ => xgDrive c >>= fun _ => awaitEdge) s) [L] (fun _ s' => Clean c s' ∧ xgLanes c s'.out.signal = .ok L) := by
  have h := word_emits c hc x () L hl hx s hs
  have he : (x >>= fun _ => xgDrive c >>= fun _ => awaitEdge) = (x >>= fun a => xgDrive c >>= fun _ => awaitEdge >>= fun _ => pure a) := by
    congr 1; funext a; congr 1; funext _
    exact (bind_pure_unit).symm
  rw [he]
  exact h.mono fun _ _ h => h.2

/-! ### The frame -/

/-- the words after the first one -/
inductive TailWords (n : Nat) : Bytes → List (List Lane) → Prop
  | last (pkt : Bytes) (h : pkt.length < n) :
      TailWords n pkt [pkt.map dataLane ++ (xgTerminate, true) :: List.replicate (n - pkt.length - 1) (xgIdle, true)]
  | more (pkt : Bytes) (ws : List (List Lane)) (h : n ≤ pkt.length) : TailWords n (pkt.drop n) ws → TailWords n pkt ((pkt.take n).map dataLane :: ws)

theorem tailWords_exists (n : Nat) (hn : 0 < n) (k : Nat) : ∀ pkt : Bytes, pkt.length ≤ k → ∃ ws, TailWords n pkt ws := by
  induction k with
  | zero => intro pkt h; exact ⟨_, .last pkt (by omega)⟩
  | succ k ih =>
    intro pkt h
    rcases Nat.lt_or_ge pkt.length n with h1 | h1
    · exact ⟨_, .last pkt h1⟩
    · obtain ⟨ws, hw⟩ := ih (pkt.drop n) (by simp; omega)
      exact ⟨_, .more pkt ws h1 hw⟩

theorem Good.xgSet (c : XgCfg) (i : Nat) (b : Byte) (f : Bool) : Good (xgSet c i b f) :=
  Good.bind Good.getOut fun _ => Good.bind (Good.ofExcept _) fun _ => Good.setPy _

theorem Good.xgFor (l : List Nat) (f : Nat → M Unit XgOut Unit) (h : ∀ i, Good (f i)) : Good (xgFor l f) := by
  induction l with
  | nil => exact Good.pure _
  | cons i l ih => exact Good.bind (h i) fun _ => ih

theorem Good.xgTerm (c : XgCfg) (i : Nat) : Good (xgTerm c i) :=
  Good.bind (Good.xgSet _ _ _ _) fun _ => Good.when _ (Good.xgFor _ _ fun _ => Good.xgSet _ _ _ _)

theorem Good.xgData (c : XgCfg) (i : Nat) (pkt : Bytes) (k : Nat) : Good (xgData c i pkt k) := by
  unfold CocotbBus.xgData
  split
  · exact Good.raise _
  · exact Good.xgSet _ _ _ _

theorem Good.xgFill (c : XgCfg) (pkt : Bytes) (k : Nat) : ∀ i, Good (xgFill c pkt k i) := by
  induction k with
  | zero => intro i; exact Good.pure _
  | succ k ih =>
    intro i
    rw [CocotbBus.xgFill]
    exact Good.ite (Good.bind (Good.xgTerm _ _) fun _ => Good.pure _) (Good.bind (Good.xgData _ _ _ _) fun _ => ih _)

theorem good_xgDrive (c : XgCfg) : Good (xgDrive c) := by
  refine Good.bind ?_ fun v => ?_
  · unfold xgValue
    have h : Good (do
        let o ← getOut
        let v ← ofExcept (createBinaryInt o.integer (c.nbytes * 9))
        setPy (fun o => { o with integer := 0 })
        pure v : M Unit XgOut BinVal) := Good.bind Good.getOut fun _ => Good.bind (Good.ofExcept _) fun _ => Good.bind (Good.setPy _) fun _ => Good.pure _
    cases c.imported
    · exact Good.bind (Good.raise _) fun _ => h
    · exact h
  · cases v with
    | logic => exact Good.raise _
    | array v => exact Good.ite (Good.write _) (Good.raise _)

theorem xgBody_consumes (c : XgCfg) : Consumes (xgBody c) := by
  intro st s t st' s' h
  unfold xgBody at h
  split at h
  · cases h
  · rw [bind_run] at h
    have hg := good_length (Good.xgFill c st.1 c.nbytes 0) s
    generalize CocotbBus.xgFill c st.1 c.nbytes 0 s = X at h hg
    obtain ⟨t1, e1⟩ := X
    cases e1 with
    | err e s1 => cases h
    | blocked s1 => cases h
    | ok fin s1 =>
      simp only [andThen_ok, Prod.mk.injEq] at h
      have h2 := h.2
      rw [bind_run] at h2
      have hg2 := good_length (good_xgDrive c) s1
      generalize CocotbBus.xgDrive c s1 = Y at h2 hg2
      obtain ⟨t2, e2⟩ := Y
      cases e2 with
      | err e s2 => cases h2
      | blocked s2 => cases h2
      | ok u s2 =>
        simp only [andThen_ok] at h2
        simp only [End.sim] at hg hg2
        have := consumes_of_edge s2 _ (by
          cases fin
          · exact Good.pure _
          · exact Good.pure _) _ st' s' (Prod.ext rfl h2)
        omega

/-- the loop and the word with TERMINATE in lane 0 if it is needed -/
def xgTail (c : XgCfg) (st : Bytes × Bool) : M Unit XgOut Unit := do
  let done ← loop (xgBody c) st
  when (!done) (do
    xgTerm c 0
    xgDrive c
    awaitEdge)

theorem xgTail_done (c : XgCfg) : xgTail c ([], true) = pure () := by
  funext s
  unfold xgTail
  rw [bind_run, loop_unfold _ (xgBody_consumes c), ← bind_run]
  rfl

theorem xgTail_nil (c : XgCfg) : xgTail c ([], false) = (do xgTerm c 0; xgDrive c; awaitEdge) := by
  funext s
  unfold xgTail
  rw [bind_run, loop_unfold _ (xgBody_consumes c), ← bind_run]
  rfl

theorem xgTail_cons (c : XgCfg) (pkt : Bytes) (h : pkt ≠ []) :
    xgTail c (pkt, false) = (do
      let fin ← (xgFill c pkt c.nbytes 0 >>= fun fin => xgDrive c >>= fun _ => awaitEdge >>= fun _ => pure fin)
      xgTail c (if fin then ([], true) else (pkt.drop c.nbytes, false))) := by
  funext s
  have hb : xgBody c (pkt, false) = (do
      let fin ← (xgFill c pkt c.nbytes 0 >>= fun fin => xgDrive c >>= fun _ => awaitEdge >>= fun _ => pure fin)
      pure (.inl (if fin then ([], true) else (pkt.drop c.nbytes, false)))) := by
    unfold xgBody
    rw [if_neg (by exact h)]
    simp only [bind_assoc, pure_bind]
    congr 1; funext fin; congr 1; funext _; congr 1; funext _
    cases fin <;> rfl
  show (loop (xgBody c) (pkt, false) >>= _) s = _
  rw [bind_run, loop_unfold _ (xgBody_consumes c), ← bind_run, hb]
  simp only [bind_assoc, pure_bind]
  rfl

theorem xgTail_emits (c : XgCfg) (hc : XgOk c) {pkt : Bytes} {ws : List (List Lane)} (hw : TailWords c.nbytes pkt ws) :
    ∀ s, Clean c s → Emits c (xgTail c (pkt, false) s) ws (fun _ s' => Clean c s') := by
  induction hw with
  | last pkt h =>
    intro s hs
    by_cases he : pkt = []
    · subst he
      rw [xgTail_nil]
      have h1 := xgTerm_assigns c [] hc.pos
      rw [List.length_nil, List.nil_append] at h1
      have := word_emits_unit c hc _ _ (by simp; have := hc.pos; omega) h1 s hs
      exact this.mono (fun _ s h => h.1)
    · rw [xgTail_cons c pkt he]
      have h1 := xgFill_assigns c pkt c.nbytes 0 (by omega) (by omega)
      rw [if_pos h] at h1
      simp only [h, decide_true] at h1
      have h2 := word_emits c hc _ true _ (by simp; omega) h1 s hs
      have := Emits.bind (ws' := []) (post' := fun (_ : Unit) s' => Clean c s') h2
        (f := fun fin => xgTail c (if fin then ([], true) else (pkt.drop c.nbytes, false))) (by
          rintro a s' ⟨rfl, hcl, _⟩
          simp only [if_true]
          rw [xgTail_done]
          exact Emits.silent hcl)
      rw [List.append_nil] at this
      exact this
  | more pkt ws h hw ih =>
    intro s hs
    have hp := hc.pos
    have he : pkt ≠ [] := by intro he; subst he; simp at h; omega
    rw [xgTail_cons c pkt he]
    have h1 := xgFill_assigns c pkt c.nbytes 0 (by omega) (by omega)
    have hlt : ¬ pkt.length < c.nbytes := by omega
    rw [if_neg hlt] at h1
    simp only [hlt, decide_false] at h1
    have h2 := word_emits c hc _ false _ (by simp; omega) h1 s hs
    exact Emits.bind (ws' := ws) (post' := fun (_ : Unit) s' => Clean c s') h2
      (f := fun fin => xgTail c (if fin then ([], true) else (pkt.drop c.nbytes, false))) (by
        rintro a s' ⟨rfl, hcl, _⟩
        simp only [Bool.false_eq_true, if_false]
        exact ih s' hcl)

/-- the driver between two packets -/
def XgReady (c : XgCfg) (s : Sim Unit XgOut) : Prop := Clean c s ∧ IdleWord c s.out.signal

/-- the words of a frame, the IDLE word after it included -/
def frameWords (n : Nat) (pkt : Bytes) (ws : List (List Lane)) : List (List Lane) :=
  ((xgStart, true) :: (pkt.take (n - 1)).map dataLane) :: ws ++ [List.replicate n (xgIdle, true)]

theorem xgSend_eq (c : XgCfg) (crc : Bytes → Nat) (p : Bytes) (sync : Bool) : xgSend c crc p sync = (do
    when sync awaitEdge
    ((xgSet c 0 xgStart true >>= fun _ => xgFor (List.range' 1 (c.nbytes - 1)) (fun i => xgData c i (layer1 crc p) (i - 1))) >>= fun _ =>
      xgDrive c >>= fun _ => awaitEdge)
    xgTail c ((layer1 crc p).drop (c.nbytes - 1), false)
    (xgFor (List.range c.nbytes) (fun i => xgSet c i xgIdle true) >>= fun _ => xgDrive c >>= fun _ => awaitEdge)) := by
  unfold xgSend xgTail xgIdleBus
  simp only [bind_assoc]

theorem xgSend_emits (c : XgCfg) (hc : XgOk c) (crc : Bytes → Nat) (p : Bytes) (sync : Bool) (hl : c.nbytes - 1 ≤ (layer1 crc p).length) {ws : List (List Lane)}
    (hw : TailWords c.nbytes ((layer1 crc p).drop (c.nbytes - 1)) ws) (s : Sim Unit XgOut) (hs : XgReady c s) :
    Emits c (xgSend c crc p sync s) ((if sync then [List.replicate c.nbytes (xgIdle, true)] else []) ++ frameWords c.nbytes (layer1 crc p) ws)
      (fun _ s' => XgReady c s') := by
  have hp := hc.pos
  rw [xgSend_eq]
  have h0 : Emits c (when sync awaitEdge s) (if sync then [List.replicate c.nbytes (xgIdle, true)] else []) (fun _ s' => XgReady c s') := by
    cases sync with
    | false => exact Emits.silent hs
    | true =>
      simp only [Coro.when, if_true]
      cases hr : s.rest with
      | nil => rw [awaitEdge_nil _ hr]; exact .inr ⟨[], _, [], rfl, rfl, List.nil_prefix⟩
      | cons i r =>
        rw [awaitEdge_cons _ i r hr]
        refine .inl ⟨_, _, _, rfl, ?_, ⟨by simp, hs.1.2⟩, hs.2⟩
        show [xgLanes c s.out.signal] = [Except.ok _]
        rw [hs.2]
  refine Emits.bind h0 fun _ s1 hs1 => ?_
  have h1 := word_emits_unit c hc _ _ (by simp; omega) (xgFirst_assigns c (layer1 crc p) hp hl) s1 hs1.1
  unfold frameWords
  rw [show ((xgStart, true) :: ((layer1 crc p).take (c.nbytes - 1)).map dataLane) :: ws ++ [List.replicate c.nbytes (xgIdle, true)] =
    [(xgStart, true) :: ((layer1 crc p).take (c.nbytes - 1)).map dataLane] ++ (ws ++ [List.replicate c.nbytes (xgIdle, true)]) from rfl]
  refine Emits.bind h1 fun _ s2 hs2 => ?_
  refine Emits.bind (xgTail_emits c hc hw s2 hs2.1) fun _ s3 hs3 => ?_
  exact word_emits_unit c hc _ _ (by simp) (xgIdle_assigns c) s3 hs3

end CocotbBus
