import Verif.Proof.XgmiiDriver

namespace CocotbBus
open Coro Spec

/-- one step of the monitor on decoded lanes -/
def lanesStep (c : XgCfg) (crc : Bytes → Nat) (st : XgState) (lanes : List Lane) : Except PyErr (XgState × List XgEvent) :=
  match st with
  | some pkt => .ok (xgAdd crc lanes pkt)
  | none =>
    match xgOpen c lanes with
    | .error e => .error e
    | .ok none => .ok (none, [])
    | .ok (some l) => .ok (xgAdd crc l [])

/-- the monitor on decoded lanes -/
def lanesMon (c : XgCfg) (crc : Bytes → Nat) : List (List Lane) → XgState → List XgEvent × Except PyErr XgState
  | [], st => ([], .ok st)
  | w :: r, st =>
    match lanesStep c crc st w with
    | .error e => ([], .error e)
    | .ok (st', ev) => (ev ++ (lanesMon c crc r st').1, (lanesMon c crc r st').2)

theorem xgMonitor_lanes (c : XgCfg) (crc : Bytes → Nat) (vs : List LogicArray) : ∀ (ws : List (List Lane)) (st : XgState),
    vs.map (xgLanes c) = ws.map .ok → xgMonitor c crc vs st = lanesMon c crc ws st := by
  induction vs with
  | nil =>
    intro ws st h
    cases ws with
    | nil => rfl
    | cons w ws => simp at h
  | cons v vs ih =>
    intro ws st h
    cases ws with
    | nil => simp at h
    | cons w ws =>
      simp only [List.map_cons, List.cons.injEq] at h
      rw [xgMonitor, lanesMon]
      have hs : xgStep c crc st v = lanesStep c crc st w := by
        unfold xgStep lanesStep
        rw [h.1]
        cases st <;> rfl
      rw [hs]
      cases lanesStep c crc st w with
      | error e => rfl
      | ok x => simp only [ih ws x.1 h.2]

theorem lanesMon_prefix (c : XgCfg) (crc : Bytes → Nat) (ws ws' : List (List Lane)) : ∀ st, (lanesMon c crc ws st).1 <+: (lanesMon c crc (ws ++ ws') st).1 := by
  induction ws with
  | nil => intro st; exact List.nil_prefix
  | cons w ws ih =>
    intro st
    rw [List.cons_append, lanesMon, lanesMon]
    cases lanesStep c crc st w with
    | error e => exact List.prefix_refl _
    | ok x => exact (List.prefix_append_right_inj _).2 (ih x.1)

theorem xgOpen_iff (c : XgCfg) (w l : List Lane) (hn : 0 < c.nbytes) (hw : w.length = c.nbytes) : xgOpen c w = .ok (some l) ↔ Opens c.nbytes w l := by
  cases w with
  | nil => simp at hw; omega
  | cons l0 r =>
    unfold xgOpen
    simp only [List.getElem?_cons_zero]
    by_cases h0 : l0 = (xgStart, true)
    · rw [if_pos h0]
      subst h0
      constructor
      · intro h
        simp at h; subst h
        exact .lane0 _
      · intro h
        generalize hx : (xgStart, true) :: r = x at h
        cases h with
        | lane0 => cases hx; rfl
        | lane4 a b hn ha h0 =>
          cases a with
          | nil => simp at ha
          | cons y a => cases hx; simp at h0
    · rw [if_neg h0]
      by_cases h8 : c.nbytes = 8
      · rw [if_pos h8]
        have hlen : 4 < (l0 :: r).length := by rw [hw, h8]; decide
        rw [List.getElem?_eq_getElem hlen]
        simp only []
        have hsplit : l0 :: r = (l0 :: r).take 4 ++ (l0 :: r)[4] :: (l0 :: r).drop 5 := by
          rw [List.getElem_cons_drop]; exact (List.take_append_drop 4 _).symm
        by_cases h4 : (l0 :: r)[4] = (xgStart, true)
        · rw [if_pos h4]
          constructor
          · intro h
            simp only [Except.ok.injEq, Option.some.injEq] at h
            subst h
            have := Opens.lane4 (n := c.nbytes) ((l0 :: r).take 4) ((l0 :: r).drop 5) h8 (by rw [List.length_take]; omega) (by simp [h0])
            rw [h4] at hsplit
            rw [← hsplit] at this
            exact this
          · intro h
            generalize hx : l0 :: r = x at h
            cases h with
            | lane0 => cases hx; exact absurd rfl h0
            | lane4 a b hn ha h0' =>
              congr 2
              rw [List.drop_append, List.drop_eq_nil_of_le (by omega), ha]
              rfl
        · rw [if_neg h4]
          constructor
          · intro h; cases h
          · intro h
            generalize hx : l0 :: r = x at h
            cases h with
            | lane0 => cases hx; exact absurd rfl h0
            | lane4 a b hn ha h0' =>
              exfalso; apply h4
              have h5 : (l0 :: r)[4]? = some (xgStart, true) := by
                rw [hx, List.getElem?_append_right (by omega), ha]; rfl
              rw [List.getElem?_eq_getElem hlen] at h5
              exact Option.some.inj h5
      · rw [if_neg h8]
        constructor
        · intro h; cases h
        · intro h
          generalize hx : l0 :: r = x at h
          cases h with
          | lane0 => cases hx; exact absurd rfl h0
          | lane4 a b hn ha h0' => exact absurd hn h8

theorem xgOpen_none (c : XgCfg) (w : List Lane) (hn : 0 < c.nbytes) (hw : w.length = c.nbytes) (h : ∀ l, ¬ Opens c.nbytes w l) : xgOpen c w = .ok none := by
  cases hx : xgOpen c w with
  | error e =>
    exfalso
    unfold xgOpen at hx
    have h0 : 0 < w.length := by omega
    rw [List.getElem?_eq_getElem h0] at hx
    simp only [] at hx
    split at hx
    · cases hx
    · split at hx
      · have h4 : 4 < w.length := by omega
        rw [List.getElem?_eq_getElem h4] at hx
        simp only [] at hx
        split at hx <;> cases hx
      · cases hx
  | ok o =>
    cases o with
    | none => rfl
    | some l => exact absurd ((xgOpen_iff c w l hn hw).1 hx) (h l)

theorem addPayload_data (d : Bytes) : ∀ pkt, xgAddPayload (d.map dataLane) pkt = (true, pkt ++ d, false) := by
  induction d with
  | nil => intro pkt; simp [xgAddPayload]
  | cons b d ih =>
    intro pkt
    rw [List.map_cons, show dataLane b = (b, false) from rfl, xgAddPayload]
    simp only [Bool.false_eq_true, if_false]
    rw [ih]; simp

theorem addPayload_end (d : Bytes) (ch : Byte) (tail : List Lane) : ∀ pkt, xgAddPayload (d.map dataLane ++ (ch, true) :: tail) pkt =
    if ch ≠ xgTerminate then (false, [], true) else (false, pkt ++ d, false) := by
  induction d with
  | nil =>
    intro pkt
    simp only [List.map_nil, List.nil_append, xgAddPayload, if_true, List.append_nil]
  | cons b d ih =>
    intro pkt
    rw [List.map_cons, show dataLane b = (b, false) from rfl, List.cons_append, xgAddPayload]
    simp only [Bool.false_eq_true, if_false]
    rw [ih]; simp

/-- what the monitor does at the end of a frame -/
def frameEnd (crc : Bytes → Nat) (d : Bytes) (ch : Byte) : List XgEvent := if ch ≠ xgTerminate then [.control] else xgFinish crc d

theorem mon_frame (c : XgCfg) (crc : Bytes → Nat) {ws rest : List (List Lane)} {d : Bytes} {ch : Byte} (h : EndsWith ws d ch rest) : ∀ pkt,
    lanesMon c crc ws (some pkt) = (frameEnd crc (pkt ++ d) ch ++ (lanesMon c crc rest none).1, (lanesMon c crc rest none).2) := by
  induction h with
  | here d ch tail rest =>
    intro pkt
    rw [lanesMon]
    simp only [lanesStep, xgAdd, addPayload_end]
    unfold frameEnd
    by_cases h : ch ≠ xgTerminate
    · rw [if_pos h, if_pos h]; simp [xgFinish]
    · rw [if_neg h, if_neg h]; simp
  | more d d' ch ws rest h ih =>
    intro pkt
    rw [lanesMon]
    simp only [lanesStep, xgAdd, addPayload_data]
    rw [ih (pkt ++ d), List.append_assoc]
    simp

theorem mon_data (c : XgCfg) (crc : Bytes → Nat) (ws : List (List Lane)) (h : ∀ x ∈ ws, ∀ y ∈ x, y.2 = false) : ∀ pkt,
    ∃ pkt', lanesMon c crc ws (some pkt) = ([], .ok (some pkt')) := by
  induction ws with
  | nil => intro pkt; exact ⟨pkt, rfl⟩
  | cons w ws ih =>
    intro pkt
    have hw : w = (w.map Prod.fst).map dataLane := by
      rw [List.map_map]
      symm
      calc w.map (dataLane ∘ Prod.fst) = w.map id := by
            apply List.map_congr_left
            intro y hy
            have := h w (by simp) y hy
            exact Prod.ext rfl this.symm
        _ = w := List.map_id w
    rw [hw, lanesMon]
    simp only [lanesStep, xgAdd, addPayload_data]
    obtain ⟨pkt', hp⟩ := ih (fun x hx => h x (by simp [hx])) (pkt ++ w.map Prod.fst)
    rw [hp]
    exact ⟨pkt', rfl⟩

theorem frameEvents_eq (crc : Bytes → Nat) (d : Bytes) (ch : Byte) (fe : List XgEvent) (h : FrameEvents crc d ch fe) : fe = frameEnd crc d ch := by
  unfold frameEnd
  cases h with
  | control d ch h => rw [if_pos h]
  | short d h1 h2 =>
    have hne : d ≠ [] := by intro he; subst he; simp at h1
    simp only [ne_eq, not_true_eq_false, if_false, xgFinish, hne]
    rw [if_pos (by omega), if_pos h2]; rfl
  | empty => simp [xgFinish]
  | preamble pre d' hp h1 h2 =>
    have hne : pre ++ d' ≠ [] := by intro he; rw [he] at h2; simp at h2
    have ht : (pre ++ d').take 7 = pre := by rw [← hp, List.take_left]
    simp only [ne_eq, not_true_eq_false, if_false, xgFinish, hne, ht]
    rw [if_neg (by omega : ¬ (pre ++ d').length < 12), if_pos h1]
  | good payload fcs hf hp errs he =>
    have hpl : preambleSfd.length = 7 := rfl
    have hpos : 0 < payload.length := List.length_pos_iff.2 hp
    have hlen : (preambleSfd ++ payload ++ fcs).length = payload.length + 11 := by simp [hpl, hf]; omega
    have hne : preambleSfd ++ payload ++ fcs ≠ [] := by intro he; rw [he] at hlen; simp at hlen
    have ht : (preambleSfd ++ payload ++ fcs).take 7 = preambleSfd := by rw [List.append_assoc, ← hpl, List.take_left]
    have hd : ((preambleSfd ++ payload ++ fcs).drop 7).take ((preambleSfd ++ payload ++ fcs).length - 7 - 4) = payload := by
      rw [hlen, List.append_assoc, show (7 : Nat) = preambleSfd.length from rfl, List.drop_left]
      rw [show payload.length + 11 - preambleSfd.length - 4 = payload.length by rw [hpl]; omega, List.take_left]
    have hl : (preambleSfd ++ payload ++ fcs).drop ((preambleSfd ++ payload ++ fcs).length - 4) = fcs := by
      rw [hlen]
      apply List.drop_left'
      simp [hpl]; omega
    simp only [ne_eq, not_true_eq_false, if_false, xgFinish, hne, ht, hd, hl]
    rw [if_neg (by omega : ¬ (preambleSfd ++ payload ++ fcs).length < 12), he]
    have : ((preambleSfd ++ payload ++ fcs).length < 64 + 7) = (payload.length < 60) := by rw [hlen]; apply propext; omega
    simp only [this]
    by_cases h1 : payload.length < 60 <;> by_cases h2 : fcs = natToBytesLE 4 (crc payload % 2 ^ 32) <;> simp [h1, h2]

theorem frameEvents_total (crc : Bytes → Nat) (d : Bytes) (ch : Byte) : ∃ fe, FrameEvents crc d ch fe := by
  by_cases hc : ch = xgTerminate
  · subst hc
    by_cases h0 : d = []
    · subst h0; exact ⟨_, .empty⟩
    · have hpos : 0 < d.length := List.length_pos_iff.2 h0
      by_cases h12 : d.length < 12
      · exact ⟨_, .short d hpos h12⟩
      · have hsplit : d = d.take 7 ++ d.drop 7 := (List.take_append_drop 7 d).symm
        have hl7 : (d.take 7).length = 7 := by simp; omega
        by_cases hp : d.take 7 = preambleSfd
        · have h2 : d.drop 7 = (d.drop 7).take (d.length - 11) ++ (d.drop 7).drop (d.length - 11) := (List.take_append_drop _ _).symm
          have : d = preambleSfd ++ (d.drop 7).take (d.length - 11) ++ (d.drop 7).drop (d.length - 11) := by
            rw [List.append_assoc, ← h2, ← hp]; exact hsplit
          rw [this]
          refine ⟨_, .good _ _ (by simp; omega) ?_ _ rfl⟩
          intro he
          have := congrArg List.length he
          simp at this; omega
        · rw [hsplit]
          refine ⟨_, .preamble (d.take 7) (d.drop 7) hl7 hp ?_⟩
          rw [← hsplit]; omega
  · exact ⟨_, .control d ch hc⟩

theorem endsWith_or_data (ws : List (List Lane)) : (∃ d ch rest, EndsWith ws d ch rest ∧ rest.length < ws.length) ∨ (∀ x ∈ ws, ∀ y ∈ x, y.2 = false) := by
  induction ws with
  | nil => right; intro x hx; cases hx
  | cons w ws ih =>
    -- the data bytes at the beginning of the word
    have hw : (∃ (d : Bytes) (ch : Byte) (tail : List Lane), w = d.map dataLane ++ (ch, true) :: tail) ∨ (∃ d : Bytes, w = d.map dataLane) := by
      clear ih
      induction w with
      | nil => exact .inr ⟨[], rfl⟩
      | cons l w ihw =>
        obtain ⟨b, f⟩ := l
        cases f with
        | true => exact .inl ⟨[], b, w, rfl⟩
        | false =>
          rcases ihw with ⟨d, ch, tail, h⟩ | ⟨d, h⟩
          · exact .inl ⟨b :: d, ch, tail, by rw [h]; rfl⟩
          · exact .inr ⟨b :: d, by rw [h]; rfl⟩
    rcases hw with ⟨d, ch, tail, rfl⟩ | ⟨d, rfl⟩
    · exact .inl ⟨d, ch, ws, .here d ch tail ws, by simp⟩
    · rcases ih with ⟨d', ch, rest, h, hl⟩ | h
      · exact .inl ⟨d ++ d', ch, rest, .more d d' ch ws rest h, by simp; omega⟩
      · right
        intro x hx
        rcases List.mem_cons.1 hx with rfl | hx
        · intro y hy
          obtain ⟨b, _, rfl⟩ := List.mem_map.1 hy
          rfl
        · exact h x hx

theorem endsWith_mem {ws rest : List (List Lane)} {d : Bytes} {ch : Byte} (h : EndsWith ws d ch rest) : ∀ x ∈ rest, x ∈ ws.tail := by
  induction h with
  | here d ch tail rest => intro x hx; exact hx
  | more d d' ch ws rest h ih => intro x hx; exact List.mem_of_mem_tail (ih x hx)

theorem open_step (c : XgCfg) (crc : Bytes → Nat) (w l : List Lane) (ws : List (List Lane)) (h : xgOpen c w = .ok (some l)) :
    lanesMon c crc (w :: ws) none = lanesMon c crc (l :: ws) (some []) := by
  rw [lanesMon, lanesMon]
  simp only [lanesStep, h]

/-- a description of the words determines what the monitor does -/
theorem scan_sound (c : XgCfg) (crc : Bytes → Nat) (hn : 0 < c.nbytes) {ws : List (List Lane)} {ev : List XgEvent} (h : Scan c.nbytes crc ws ev) :
    (∀ w ∈ ws, w.length = c.nbytes) → (lanesMon c crc ws none).1 = ev ∧ ∃ st, (lanesMon c crc ws none).2 = .ok st := by
  induction h with
  | nil => intro _; exact ⟨rfl, _, rfl⟩
  | skip w ws ev h hs ih =>
    intro hl
    have := ih (fun x hx => hl x (by simp [hx]))
    rw [lanesMon]
    simp only [lanesStep, xgOpen_none c w hn (hl w (by simp)) h, List.nil_append]
    exact this
  | frame w l ws rest d ch fe ev ho he hf hs ih =>
    intro hl
    have := ih (fun x hx => hl x (by have := endsWith_mem he x hx; simp at this; simp [this]))
    rw [open_step c crc w l ws ((xgOpen_iff c w l hn (hl w (by simp))).2 ho), mon_frame c crc he []]
    rw [List.nil_append, ← frameEvents_eq crc d ch fe hf]
    exact ⟨by rw [this.1], this.2⟩
  | unfinished w l ws ho hd =>
    intro hl
    rw [open_step c crc w l ws ((xgOpen_iff c w l hn (hl w (by simp))).2 ho)]
    obtain ⟨pkt, hp⟩ := mon_data c crc (l :: ws) hd []
    rw [hp]
    exact ⟨rfl, _, rfl⟩

/-- every sequence of words has a description -/
theorem scan_total (c : XgCfg) (crc : Bytes → Nat) (k : Nat) : ∀ ws : List (List Lane), ws.length ≤ k → (∀ w ∈ ws, w.length = c.nbytes) →
    ∃ ev, Scan c.nbytes crc ws ev := by
  induction k with
  | zero =>
    intro ws h _
    have : ws = [] := List.eq_nil_of_length_eq_zero (by omega)
    subst this
    exact ⟨_, .nil⟩
  | succ k ih =>
    intro ws h hl
    cases ws with
    | nil => exact ⟨_, .nil⟩
    | cons w ws =>
      by_cases ho : ∃ l, Opens c.nbytes w l
      · obtain ⟨l, ho⟩ := ho
        rcases endsWith_or_data (l :: ws) with ⟨d, ch, rest, he, hr⟩ | hd
        · obtain ⟨fe, hf⟩ := frameEvents_total crc d ch
          obtain ⟨ev, hs⟩ := ih rest (by simp at h hr; omega) (fun x hx => hl x (by have := endsWith_mem he x hx; simp at this; simp [this]))
          exact ⟨_, .frame w l ws rest d ch fe ev ho he hf hs⟩
        · exact ⟨_, .unfinished w l ws ho hd⟩
      · obtain ⟨ev, hs⟩ := ih ws (by simp at h; omega) (fun x hx => hl x (by simp [hx]))
        exact ⟨_, .skip w ws ev (fun l hl => ho ⟨l, hl⟩) hs⟩

end CocotbBus
