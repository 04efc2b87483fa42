import Verif.Proof.XgmiiRound

namespace CocotbBus
open Spec Coro

/-! ### C67 -/

/-- Assign lanes of the driver's bus object one after the other, starting from an empty word. -/
def assignLanes (c : XgCfg) : List (Nat × Lane) → Nat → Except PyErr Nat
  | [], w => .ok w
  | (i, b, f) :: r, w =>
    match xgSetItem c i b f w with
    | .ok w' => assignLanes c r w'
    | .error e => .error e

theorem rep_set_at (c : XgCfg) (g : List Lane) (w i : Nat) (b : Byte) (f : Bool) (h : Rep c g w) (hg : g[i]? = some (0#8, false)) :
    ∃ w', xgSetItem c i b f w = .ok w' ∧ Rep c (g.set i (b, f)) w' := by
  obtain ⟨hi, hv⟩ := List.getElem?_eq_some_iff.1 hg
  have hsplit : g = g.take i ++ (0#8, false) :: g.drop (i + 1) := by
    rw [← hv, List.getElem_cons_drop]; exact (List.take_append_drop i g).symm
  have hl : (g.take i).length = i := by simp; omega
  have h' := h
  rw [hsplit] at h'
  obtain ⟨w', h1, h2⟩ := rep_set c (g.take i) (g.drop (i + 1)) w b f h'
  rw [hl] at h1
  refine ⟨w', h1, ?_⟩
  have : g.set i (b, f) = g.take i ++ (b, f) :: g.drop (i + 1) := by
    rw [List.set_eq_take_append_cons_drop, if_pos hi]
  rw [this]; exact h2

theorem assignLanes_rep (c : XgCfg) (as : List (Nat × Lane)) : ∀ (g : List Lane) (w : Nat), Rep c g w → (as.map Prod.fst).Nodup →
    (∀ a ∈ as, g[a.1]? = some (0#8, false)) →
    ∃ w' g', assignLanes c as w = .ok w' ∧ Rep c g' w' ∧ ∀ i : Nat, g'[i]? = if i < c.nbytes then some ((as.lookup i).getD (g[i]?.getD (0#8, false))) else none := by
  induction as with
  | nil =>
    intro g w h _ _
    refine ⟨w, g, rfl, h, fun i => ?_⟩
    split
    · rename_i hi
      have : i < g.length := by rw [h.len]; exact hi
      simp [this]
    · rename_i hi
      exact List.getElem?_eq_none (by rw [h.len]; omega)
  | cons a as ih =>
    intro g w h hnd hz
    obtain ⟨i, b, f⟩ := a
    rw [List.map_cons, List.nodup_cons] at hnd
    obtain ⟨w1, h1, h2⟩ := rep_set_at c g w i b f h (hz (i, b, f) (by simp))
    obtain ⟨w', g', h3, h4, h5⟩ := ih (g.set i (b, f)) w1 h2 hnd.2 (fun x hx => by
      have hne : x.1 ≠ i := fun he => hnd.1 (List.mem_map.2 ⟨x, hx, he⟩)
      rw [List.getElem?_set_ne (fun he => hne he.symm)]
      exact hz x (by simp [hx]))
    refine ⟨w', g', ?_, h4, fun k => ?_⟩
    · rw [assignLanes, h1]; exact h3
    · rw [h5 k]
      split
      · rename_i hk
        congr 1
        by_cases hki : k = i
        · subst hki
          have hlook : as.lookup k = none := by
            rw [List.lookup_eq_none_iff]
            intro p hp
            have : p.1 ≠ k := fun he => hnd.1 (List.mem_map.2 ⟨p, hp, he⟩)
            simpa using fun he => this he.symm
          have hlt : k < g.length := by rw [h.len]; exact hk
          rw [hlook]
          simp [hlt]
        · have : (k == i) = false := by simpa using hki
          rw [List.lookup_cons, this, List.getElem?_set_ne (fun he => hki he.symm)]
      · rfl

/-- C67: for every number of lanes and both layouts, assigning different lanes in any order never raises, the word fits the signal, and
the monitor finds in every lane what was assigned to it (and a zero data byte in the lanes nothing was assigned to). -/
theorem C67_lossless (c : XgCfg) (as : List (Nat × Lane)) (hnd : (as.map Prod.fst).Nodup) (hr : ∀ a ∈ as, a.1 < c.nbytes) :
    ∃ w, assignLanes c as 0 = .ok w ∧ w < 2 ^ (c.nbytes * 9) ∧
      xgLanes c (natToBits (c.nbytes * 9) w) = .ok ((List.range c.nbytes).map fun i => (as.lookup i).getD (0#8, false)) := by
  obtain ⟨w, g, h1, h2, h3⟩ := assignLanes_rep c as _ 0 (rep_zero c) hnd (fun a ha => by simp [hr a ha])
  refine ⟨w, h1, h2.lt, ?_⟩
  rw [rep_decode c g w h2]
  congr 1
  apply List.ext_getElem?
  intro i
  rw [h3 i, List.getElem?_map]
  split
  · rename_i hi
    rw [List.getElem?_range hi]
    simp [hi]
  · rename_i hi
    rw [List.getElem?_eq_none (by simpa using hi)]; rfl

example : (([(2, 0xAB#8, false), (0, 0xFB#8, true), (1, 0x01#8, false)] : List (Nat × Lane)).map Prod.fst).Nodup ∧
    xgLanes ⟨36, false, true⟩ (natToBits 36 (match assignLanes ⟨36, false, true⟩ [(2, 0xAB#8, false), (0, 0xFB#8, true), (1, 0x01#8, false)] 0 with
      | .ok w => w
      | _ => 0)) = .ok [(0xFB#8, true), (0x01#8, false), (0xAB#8, false), (0#8, false)] := by
  constructor <;> decide +kernel

/-- C67: assigning a lane that does not exist raises IndexError. -/
theorem C67_index (c : XgCfg) (i : Nat) (b : Byte) (f : Bool) (w : Nat) : xgSetItem c i b f w = .error .indexError ↔ c.nbytes ≤ i := by
  unfold xgSetItem
  split
  · rename_i h; simp; omega
  · split
    · simp; omega
    · simp; omega

/-! ### C68 -/

/-- C68: preamble and SFD, the packet padded with zeros to at least 60 bytes, the check sum of the padded packet, low byte first; the
length is max(len, 60) + 11. -/
theorem C68_layer1 (crc : Bytes → Nat) (p : Bytes) :
    layer1 crc p = [0x55#8, 0x55#8, 0x55#8, 0x55#8, 0x55#8, 0x55#8, 0xd5#8] ++ padded p ++
      [BitVec.ofNat 8 (crc (padded p)), BitVec.ofNat 8 (crc (padded p) / 2 ^ 8), BitVec.ofNat 8 (crc (padded p) / 2 ^ 16), BitVec.ofNat 8 (crc (padded p) / 2 ^ 24)] ∧
    (layer1 crc p).length = max p.length 60 + 11 ∧ p <+: padded p ∧ (padded p).drop p.length = List.replicate (60 - p.length) 0#8 := by
  refine ⟨?_, layer1_length crc p, List.prefix_append _ _, by unfold padded; rw [List.drop_left]⟩
  rw [layer1_eq]
  have : natToBytesLE 4 (crc (padded p) % 2 ^ 32) = [BitVec.ofNat 8 (crc (padded p)), BitVec.ofNat 8 (crc (padded p) / 2 ^ 8),
      BitVec.ofNat 8 (crc (padded p) / 2 ^ 16), BitVec.ofNat 8 (crc (padded p) / 2 ^ 24)] := by
    simp only [natToBytesLE]
    generalize crc (padded p) = n
    congr 1
    · apply BitVec.eq_of_toNat_eq; simp only [BitVec.toNat_ofNat]; omega
    congr 1
    · apply BitVec.eq_of_toNat_eq; simp only [BitVec.toNat_ofNat]; omega
    congr 1
    · apply BitVec.eq_of_toNat_eq; simp only [BitVec.toNat_ofNat]; omega
    congr 1
    · apply BitVec.eq_of_toNat_eq; simp only [BitVec.toNat_ofNat]; omega
  rw [this]
  rfl

example : (layer1 (fun _ => 0x12345678) [1#8, 2#8]).length = 71 ∧ (layer1 (fun _ => 0x12345678) [1#8, 2#8]).drop 67 = [0x78#8, 0x56#8, 0x34#8, 0x12#8] := by
  constructor <;> decide +kernel

/-! ### C69 -/

/-- C69, proved part: for every sequence of packets, either layout, every number of lanes from 1 up to the length of the shortest frame,
and every check sum function, the monitor on the signal reports exactly the padded packets in order with no error, once they are all
sent, and a prefix of them at any time before. Missing: the driver as it is cannot be constructed (`C70_violated`); this is about the
module with the missing import added. On wider buses the driver raises, see `C69_violated`. -/
theorem C69_round_trip_partial (c : XgCfg) (hc : c.imported = true) (hw : c.width = c.nbytes * 9) (hn : 0 < c.nbytes) (crc : Bytes → Nat)
    (items : List (Bytes × Bool)) (hl : ∀ it ∈ items, c.nbytes ≤ max it.1.length 60 + 12) (s : Sim Unit XgOut) (hp : s.phase ≠ .ro)
    (h0 : s.out.integer = 0) (hi : IdleWord c s.out.signal) :
    (xgMonitor c crc ((xgSendAll c crc items s).1.map (·.1.signal)) none).1 <+: items.map (fun it => .recv (padded it.1)) ∧
    (∀ e s', (xgSendAll c crc items s).2 ≠ .err e s') ∧
    (∀ s', (xgSendAll c crc items s).2 = .ok () s' → ∃ st,
      xgMonitor c crc ((xgSendAll c crc items s).1.map (·.1.signal)) none = (items.map (fun it => .recv (padded it.1)), .ok st)) := by
  obtain ⟨ws, h1, h2, h3⟩ := sendAll_emits c ⟨hc, hw, hn⟩ crc items hl
  obtain ⟨h4, st, h5⟩ := scan_sound c crc hn h2 h1
  rcases h3 s ⟨⟨hp, part_nil_of_zero c s h0⟩, hi⟩ with ⟨t, a, s', e1, e2, e3⟩ | ⟨t, s', ws', e1, e2, e3⟩
  · have hm : xgMonitor c crc (t.map (·.1.signal)) none = lanesMon c crc ws none :=
      xgMonitor_lanes c crc _ ws none (by unfold XgShows at e2; rw [List.map_map]; exact e2)
    rw [e1]
    simp only [hm]
    refine ⟨by rw [h4]; exact List.prefix_refl _, (fun e s' h => by cases h), (fun s' h => ⟨st, Prod.ext h4 h5⟩)⟩
  · have hm : xgMonitor c crc (t.map (·.1.signal)) none = lanesMon c crc ws' none :=
      xgMonitor_lanes c crc _ ws' none (by unfold XgShows at e2; rw [List.map_map]; exact e2)
    rw [e1]
    simp only [hm]
    refine ⟨?_, (fun e s' h => by cases h), (fun s' h => by cases h)⟩
    obtain ⟨r, rfl⟩ := e3
    have := lanesMon_prefix c crc ws' r none
    rw [h4] at this
    exact this

/-- a bus of four lanes, idle, and enough time -/
def exXg : XgCfg := ⟨36, true, true⟩
def exXgSim (k : Nat) : Sim Unit XgOut :=
  { phase := .mid, out := { signal := natToBits 36 (0x107 * (1 + 2 ^ 9 + 2 ^ 18 + 2 ^ 27)), integer := 0 }, prev := (), cur := (), rest := List.replicate k () }

example : exXg.width = exXg.nbytes * 9 ∧ IdleWord exXg (exXgSim 0).out.signal := by
  unfold IdleWord
  constructor <;> decide +kernel

-- two packets, the second longer than the minimum
example : xgMonitor exXg (fun b => b.length * 77777) (((xgSendAll exXg (fun b => b.length * 77777) [([1#8, 2#8, 3#8], true), (List.replicate 62 9#8, false)]
      (exXgSim 60)).1).map (·.1.signal)) none = ([.recv (padded [1#8, 2#8, 3#8]), .recv (List.replicate 62 9#8)], .ok none) := by decide +kernel

/-- C69 is false even of the repaired module on buses wider than a frame: with 73 lanes the shortest packet makes the driver raise
IndexError. -/
theorem C69_violated : ∃ (c : XgCfg) (s : Sim Unit XgOut) (s' : Sim Unit XgOut), c.imported = true ∧ c.width = c.nbytes * 9 ∧ s.out.integer = 0 ∧ s.phase ≠ .ro ∧
    (xgSendAll c (fun _ => 0) [([], false)] s).2 = .err .indexError s' := by
  refine ⟨⟨9 * 73, true, true⟩, { phase := .mid, out := { signal := [], integer := 0 }, prev := (), cur := (), rest := [] },
    (xgSendAll ⟨9 * 73, true, true⟩ (fun _ => 0) [([], false)] { phase := .mid, out := { signal := [], integer := 0 }, prev := (), cur := (), rest := [] }).2.sim,
    rfl, rfl, rfl, by decide, by decide +kernel⟩

/-! ### C70 -/

theorem xgFor_ok (c : XgCfg) (b : Byte) (f : Bool) (l : List Nat) (hl : ∀ i ∈ l, i < c.nbytes) : ∀ s : Sim Unit XgOut,
    ∃ s', xgFor l (fun i => xgSet c i b f) s = ([], .ok () s') ∧ Upd s s' := by
  induction l with
  | nil => intro s; exact ⟨s, rfl, Upd.refl s⟩
  | cons i l ih =>
    intro s
    have hi := hl i (by simp)
    obtain ⟨w, hw⟩ : ∃ w, xgSetItem c i b f s.out.integer = .ok w := by
      unfold xgSetItem
      rw [if_neg (by omega)]
      split <;> exact ⟨_, rfl⟩
    have h1 : xgSet c i b f s = ([], .ok () { s with out := { s.out with integer := w } }) := by
      unfold xgSet
      rw [bind_getOut, hw, bind_ofExcept_ok]; rfl
    obtain ⟨s', h2, h3⟩ := ih (fun j hj => hl j (by simp [hj])) { s with out := { s.out with integer := w } }
    refine ⟨s', ?_, Upd.trans ⟨w, rfl⟩ h3⟩
    rw [xgFor, bind_silent _ _ _ _ _ h1, h2]

/-- C70 is false of the code: constructing the XGMII driver raises NameError, for every signal width and both layouts, at every time;
the signal is left as it is. -/
theorem C70_violated (c : XgCfg) (h : c.imported = false) (s : Sim Unit XgOut) :
    ∃ s', xgInit c s = ([], .err .nameError s') ∧ s'.out.signal = s.out.signal := by
  unfold xgInit xgIdleBus
  rw [bind_setPy]
  obtain ⟨s', h1, ⟨w, rfl⟩⟩ := xgFor_ok c xgIdle true (List.range c.nbytes) (fun i hi => by simpa using hi) { s with out := { s.out with integer := 0 } }
  rw [bind_silent _ _ _ _ _ h1]
  have : xgDrive c { s with out := { s.out with integer := w } } = ([], .err .nameError { s with out := { s.out with integer := w } }) := by
    unfold xgDrive xgValue
    rw [h]
    rfl
  exact ⟨_, this, rfl⟩

/-- the code as it is, on a bus of 8 lanes -/
example : ∃ s', xgInit ⟨72, true, false⟩ { phase := .mid, out := ⟨[], 0⟩, prev := (), cur := (), rest := [] } = ([], .err .nameError s') := by
  obtain ⟨s', h, _⟩ := C70_violated ⟨72, true, false⟩ rfl { phase := .mid, out := ⟨[], 0⟩, prev := (), cur := (), rest := [] }
  exact ⟨s', h⟩

/-- C70, proved part: with the missing import added, construction drives IDLE on all lanes when the signal has 9 bits per lane, and leaves
the driver in the state `C69_round_trip_partial` starts from. Missing: the import. -/
theorem C70_repaired_partial (c : XgCfg) (hc : c.imported = true) (hw : c.width = c.nbytes * 9) (hn : 0 < c.nbytes) (s : Sim Unit XgOut) (hp : s.phase ≠ .ro) :
    ∃ s', xgInit c s = ([], .ok () s') ∧ IdleWord c s'.out.signal ∧ s'.out.integer = 0 ∧ s'.phase ≠ .ro := by
  unfold xgInit xgIdleBus
  rw [bind_setPy]
  obtain ⟨s1, h1, ⟨w, rfl⟩, h3⟩ := xgIdle_assigns c { s with out := { s.out with integer := 0 } } (part_nil_of_zero c _ rfl)
  obtain ⟨v, h4, h5⟩ := xgDrive_run c ⟨hc, hw, hn⟩ _ _ (by exact hp) h3 (by simp)
  rw [bind_silent _ _ _ _ _ h1, h4]
  exact ⟨_, rfl, h5, rfl, hp⟩

example : (match xgInit exXg { exXgSim 0 with out := ⟨[], 5⟩ } with
    | (_, .ok _ s) => s.out
    | _ => ⟨[], 1⟩) = (exXgSim 0).out := by decide +kernel

/-- Even then a signal whose width is not 9 bits per lane makes construction raise ValueError. -/
theorem C70_width (c : XgCfg) (hc : c.imported = true) (hw : c.width ≠ c.nbytes * 9) (s : Sim Unit XgOut) :
    ∃ s', xgInit c s = ([], .err .valueError s') := by
  unfold xgInit xgIdleBus
  rw [bind_setPy]
  obtain ⟨s1, h1, ⟨w, rfl⟩, h3⟩ := xgIdle_assigns c { s with out := { s.out with integer := 0 } } (part_nil_of_zero c _ rfl)
  rw [bind_silent _ _ _ _ _ h1]
  have hr := h3.2
  rw [List.length_replicate, Nat.sub_self, List.replicate_zero, List.append_nil] at hr
  unfold xgDrive
  have hv : xgValue c { s with out := { s.out with integer := w } } = ([], .ok (.array (natToBits (c.nbytes * 9) w)) { s with out := { s.out with integer := 0 } }) := by
    unfold xgValue
    rw [hc]
    simp only [Bool.not_true, Bool.false_eq_true, if_false]
    rw [bind_getOut]
    have : createBinaryInt w (c.nbytes * 9) = .ok (.array (natToBits (c.nbytes * 9) w)) := by
      unfold createBinaryInt
      rw [if_neg (by omega), if_pos hr.lt]
    rw [this, bind_ofExcept_ok, bind_setPy]
    rfl
  have := bind_silent (xgValue c) (fun v => match v with
    | .logic _ => raise .valueError
    | .array v => if v.length = c.width then write (fun o => { o with signal := v }) else raise .valueError) _ _ _ hv
  refine ⟨{ s with out := { s.out with integer := 0 } }, this.trans ?_⟩
  simp only [natToBits_length]
  rw [if_neg (fun h => hw h.symm)]
  rfl

/-! ### C71 -/

/-- C71: what the monitor does, for every sequence of words without X and Z on a bus of at least one lane. `Scan` describes it frame by
frame: words outside frames are skipped; a frame with another control character than TERMINATE inside, with fewer than 12 bytes or with
a wrong preamble is dropped with an error; any other frame is reported without preamble and last four bytes, a wrong check sum being
logged as an error; and after each of them the monitor is ready for the next. Every sequence has such a description, the monitor does
what it says, and it goes on. -/
theorem C71_monitor (c : XgCfg) (hn : 0 < c.nbytes) (crc : Bytes → Nat) (vs : List LogicArray) (hv : ∀ v ∈ vs, isResolvable v = true) :
    ∃ ws, vs.map (xgLanes c) = ws.map .ok ∧ (∃ ev, Scan c.nbytes crc ws ev) ∧
      ∀ ev, Scan c.nbytes crc ws ev → (xgMonitor c crc vs none).1 = ev ∧ ∃ st, (xgMonitor c crc vs none).2 = .ok st := by
  have hdec : ∀ v : LogicArray, isResolvable v = true → ∃ w : List Lane, xgLanes c v = .ok w ∧ w.length = c.nbytes := by
    intro v h
    unfold xgLanes toUnsigned
    rw [if_pos h]
    exact ⟨_, rfl, by simp⟩
  have hws : ∃ ws : List (List Lane), vs.map (xgLanes c) = ws.map .ok ∧ ∀ w ∈ ws, w.length = c.nbytes := by
    clear hn
    induction vs with
    | nil => exact ⟨[], rfl, by intro w h; cases h⟩
    | cons v vs ih =>
      obtain ⟨ws, h1, h2⟩ := ih (fun x hx => hv x (by simp [hx]))
      obtain ⟨w, h3, h4⟩ := hdec v (hv v (by simp))
      refine ⟨w :: ws, by rw [List.map_cons, List.map_cons, h1, h3], ?_⟩
      intro x hx
      rcases List.mem_cons.1 hx with rfl | hx
      · exact h4
      · exact h2 x hx
  obtain ⟨ws, h1, h2⟩ := hws
  refine ⟨ws, h1, scan_total c crc _ ws (Nat.le_refl _) h2, fun ev h => ?_⟩
  rw [xgMonitor_lanes c crc vs ws none h1]
  exact scan_sound c crc hn h h2

/-- The characters and the preamble `Scan` speaks of are those of the standard. -/
theorem C71_characters : xgIdle = 0x07#8 ∧ xgStart = 0xFB#8 ∧ xgTerminate = 0xFD#8 ∧
    preambleSfd = [0x55#8, 0x55#8, 0x55#8, 0x55#8, 0x55#8, 0x55#8, 0xd5#8] := ⟨rfl, rfl, rfl, rfl⟩

/-- a word of four lanes -/
def exWord (l : List Lane) : LogicArray :=
  natToBits 36 ((l.mapIdx fun i x => (x.1.toNat + 256 * x.2.toNat) * 2 ^ (9 * i)).foldl (· + ·) 0)

-- a frame with a control character inside is dropped, and the next is looked at
example : xgMonitor exXg (fun _ => 0) [exWord [(0xFB, true), (1, false), (2, false), (3, false)], exWord [(4, false), (7, true), (7, true), (7, true)],
      exWord [(0xFB, true), (1, false), (2, false), (3, false)], exWord [(4, false), (5, false), (6, false), (0xFD, true)]] none =
    ([.control, .runt, .noData], .ok none) := by decide +kernel

/-- C71: a word with X or Z while the monitor is running ends it with ValueError. -/
theorem C71_unresolved (c : XgCfg) (crc : Bytes → Nat) (v : LogicArray) (vs : List LogicArray) (st : XgState) (h : isResolvable v = false) :
    xgMonitor c crc (v :: vs) st = ([], .error .valueError) := by
  rw [xgMonitor]
  unfold xgStep xgLanes toUnsigned
  rw [h]
  rfl

/-- C71 is false of the code for frames without data: TERMINATE right after START is dropped without an error. -/
theorem C71_violated : ∃ (ws : List (List Lane)) (d : Bytes), Opens 4 [(xgStart, true), (xgTerminate, true), (xgIdle, true), (xgIdle, true)] (ws.headD []) ∧
    EndsWith ws d xgTerminate [] ∧ d.length < 12 ∧
    xgMonitor exXg (fun _ => 0) [exWord [(xgStart, true), (xgTerminate, true), (xgIdle, true), (xgIdle, true)]] none = ([], .ok none) :=
  ⟨[[(xgTerminate, true), (xgIdle, true), (xgIdle, true)]], [], .lane0 _, .here [] _ _ _, by decide, by decide +kernel⟩

end CocotbBus
