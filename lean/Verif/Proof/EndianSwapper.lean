import Mathlib.Data.List.Forall2
import Verif.Model.EndianSwapper
import Verif.Proof.PktsReconf
import Verif.Proof.SwapDriver

/-!
The endian swapper: every beat taken at the input comes out once, in order, laid out as the order that the output monitor then assumes.
-/

namespace CocotbBus
open Spec Coro

theorem vAnd_ofBool (a b : Bool) : vAnd (Logic.ofBool a) (Logic.ofBool b) = Logic.ofBool (a && b) := by cases a <;> cases b <;> decide
theorem vOr_ofBool (a b : Bool) : vOr (Logic.ofBool a) (Logic.ofBool b) = Logic.ofBool (a || b) := by cases a <;> cases b <;> decide
theorem vNot_ofBool (a : Bool) : vNot (Logic.ofBool a) = Logic.ofBool (!a) := by cases a <;> decide

/-- the beat `b` of the input as a beat of the output, together with the configuration of the monitor -/
structure Carries (inOrder : Bool) (out : PkCfg) (w : Bool) (b : PkOut) (q : PkCfg × PkOut) : Prop where
  cfg : q.1 = { out with highFirst := w ^^ inOrder }
  sop : q.2.sop = b.sop
  eop : q.2.eop = b.eop
  empty : q.2.empty = b.empty
  data : q.2.data = if w then byteswap b.data else b.data

/-- The state between two edges. `pend`: the beat in the output registers, if it is still to come out. -/
structure SwInv (inOrder : Bool) (d : SwapDev) (g : Logic × Bool) (order w : Bool) (pend : Option PkOut) : Prop where
  swapping : d.swapping = Logic.ofBool w
  held : g.1 = .one → g.2 = true → order = (w ^^ inOrder)
  free : pend = none → d.eop = .one ∧ d.flush = .zero ∧ d.inPacket = .zero
  busy : ∀ b, pend = some b → d.sop = b.sop ∧ d.eop = b.eop ∧ d.empty = b.empty ∧ d.data = (if w then byteswap b.data else b.data) ∧
    order = (w ^^ inOrder) ∧ ((b.eop = .zero ∧ d.flush = .zero ∧ d.inPacket = .one) ∨ (b.eop = .one ∧ d.flush = .one ∧ d.inPacket = .zero))

theorem setter_right (inOrder w : Bool) (g1 : Logic) (sop : Logic) (order : Bool) (h : order = (w ^^ inOrder)) :
    setterOrder inOrder g1 sop (Logic.ofBool w) order = (w ^^ inOrder) := by
  unfold setterOrder
  split
  · cases w <;> simp [Logic.ofBool]
  · exact h

theorem setter_rise (inOrder w : Bool) (g1 : Logic) (order : Bool) (h : g1 = .one → order = (w ^^ inOrder)) :
    setterOrder inOrder g1 .one (Logic.ofBool w) order = (w ^^ inOrder) := by
  unfold setterOrder
  split
  · cases w <;> simp [Logic.ofBool]
  · rename_i hn
    by_cases h1 : g1 = .one
    · exact h h1
    · exact absurd ⟨h1, rfl⟩ hn

/-- a beat is taken -/
def takes (r : PkOut × PkIn) : Bool := r.1.valid == .one && r.2.ready == .one

theorem event_of (c : PkCfg) (hr : c.hasReady = true) (r : PkOut × PkIn) (h : inReset r.2.resetN r.2.reset = .ok false) :
    eventAt c r = if takes r then .beat r.1 else .idle := by
  have : (pkStream c).xfer r = takes r := by rw [← pkValid_eq c r.1 r.2]; simp [pkValid, hr, takes]
  unfold eventAt
  rw [this, h]
  simp

/-- one edge -/
theorem swap_step (inOrder : Bool) (out : PkCfg) (d : SwapDev) (g : Logic × Bool) (order w : Bool) (pend : Option PkOut) (r : PkOut × PkIn) (csr : Option Bool)
    (hinv : SwInv inOrder d g order w pend) (hacc : SopAcc g r) (hready : Known r.2.ready) (hframe : takes r = true → (r.1.sop = .one ↔ d.eop = .one)) :
    ∃ w' pend', SwInv inOrder (d.step r.1 r.2.ready csr) (sopUpd g r) (setterOrder inOrder g.1 r.1.sop d.swapping order) w' pend' ∧
      ∃ done : List PkOut, pend.toList ++ (if takes r then [r.1] else []) = done ++ pend'.toList ∧
        List.Forall₂ (fun b q => ∃ w, Carries inOrder out w b q) done
          (if takes (d.output r.1, r.2) then [({ out with highFirst := setterOrder inOrder g.1 r.1.sop d.swapping order }, d.output r.1)] else []) ∧
      (takes r = true → pend' = some r.1) := by
  obtain ⟨o, i⟩ := r
  obtain ⟨sw, held, free, busy⟩ := hinv
  obtain ⟨hv, hsop, heop, hfresh⟩ := hacc
  simp only at hv hsop heop hfresh hready hframe ⊢
  rw [sw]
  generalize hord : setterOrder inOrder g.1 o.sop (Logic.ofBool w) order = order'
  have hoffer : o.valid = .one → o.sop = .one → order' = (w ^^ inOrder) := by
    intro h1 h2
    rw [← hord, h2]
    exact setter_rise _ _ _ _ (fun h => held h (hfresh h1 h2 h))
  have hkeep : order = (w ^^ inOrder) → order' = (w ^^ inOrder) := by
    intro h; rw [← hord]; exact setter_right _ _ _ _ _ h
  obtain ⟨w', hw', hsame⟩ : ∃ w', (d.step o i.ready csr).swapping = Logic.ofBool w' ∧ (d.waitrequest o = .one → w' = w) := by
    cases csr with
    | none => exact ⟨w, by simp [SwapDev.step, sw], fun _ => rfl⟩
    | some b =>
      by_cases h : vNot (d.waitrequest o) = .one
      · exact ⟨b, by simp [SwapDev.step, h], fun h2 => by rw [h2] at h; cases h⟩
      · exact ⟨w, by simp [SwapDev.step, h, sw], fun _ => rfl⟩
  have hblockS : o.valid = .one → o.sop = .one → w' = w := by
    intro h1 h2; apply hsame; simp [SwapDev.waitrequest, h1, h2, vAnd, vOr]
  have hblockP : d.inPacket = .one → w' = w := by
    intro h1; apply hsame; simp [SwapDev.waitrequest, h1, vOr]
  have hblockF : d.flush = .one → w' = w := by
    intro h1; apply hsame; simp [SwapDev.waitrequest, h1, vOr]
  have hheld : (sopUpd g (o, i)).1 = .one → (sopUpd g (o, i)).2 = true → order' = (w' ^^ inOrder) := by
    intro h1 h2
    simp only [sopUpd, beq_iff_eq] at h1 h2
    rw [hblockS h2 h1]
    exact hoffer h2 h1
  have hdata : (if vNot d.swapping = .one then o.data else byteswap o.data) = if w then byteswap o.data else o.data := by
    rw [sw]; cases w <;> simp [Logic.ofBool, vNot]
  -- the beat that is taken
  have htaken : o.valid = .one → i.ready = .one → w' = w → order' = (w ^^ inOrder) →
      (o.sop = .one ∨ d.inPacket = .one) → (d.flush = .zero ∨ d.flush = .one) →
      SwInv inOrder (d.step o i.ready csr) (sopUpd g (o, i)) order' w' (some o) := by
    intro h1 h2 h3 h4 h5 h6
    refine ⟨hw', hheld, fun h => (by cases h), fun b hb => ?_⟩
    cases hb
    have htk : vAnd i.ready o.valid = .one := by rw [h1, h2]; rfl
    refine ⟨?_, ?_, ?_, ?_, by rw [h3]; exact h4, ?_⟩
    · simp [SwapDev.step, htk]
    · simp [SwapDev.step, htk]
    · simp [SwapDev.step, htk]
    · simp only [SwapDev.step, htk, if_true, h3]; exact hdata
    · rcases heop h1 with he | he
      · refine .inl ⟨he, ?_, ?_⟩
        · rcases h6 with h6 | h6 <;> simp [SwapDev.step, h1, h2, h6, he, vAnd, vNot]
        · rcases h5 with h5 | h5
          · simp [SwapDev.step, h1, h2, h5, he, vAnd]
          · simp [SwapDev.step, h1, h2, h5, he, vAnd]
      · refine .inr ⟨he, ?_, ?_⟩
        · rcases h6 with h6 | h6 <;> simp [SwapDev.step, h1, h2, h6, he, vAnd, vNot]
        · simp [SwapDev.step, h1, h2, he, vAnd]
  -- an edge at which nothing is taken
  have hidle : takes (o, i) = false → (d.flush = .zero ∨ (d.flush = .one ∧ i.ready = .zero)) →
      (d.step o i.ready csr).flush = d.flush ∧ (d.step o i.ready csr).inPacket = d.inPacket ∧ (d.step o i.ready csr).sop = d.sop ∧
      (d.step o i.ready csr).eop = d.eop ∧ (d.step o i.ready csr).data = d.data ∧ (d.step o i.ready csr).empty = d.empty := by
    intro h1 h2
    rcases hv with hv | hv <;> rcases hready with hr | hr
    · rcases h2 with h2 | ⟨h2, -⟩ <;> simp [SwapDev.step, hv, hr, h2, vAnd, vNot]
    · rcases h2 with h2 | ⟨h2, h3⟩
      · simp [SwapDev.step, hv, hr, h2, vAnd, vNot]
      · rw [hr] at h3; cases h3
    · rcases h2 with h2 | ⟨h2, -⟩ <;> simp [SwapDev.step, hv, hr, h2, vAnd, vNot]
    · simp [takes, hv, hr] at h1
  have hemit : ∀ b, pend = some b → Carries inOrder out w b ({ out with highFirst := order' }, d.output o) := by
    intro b hb
    obtain ⟨b1, b2, b3, b4, b5, -⟩ := busy b hb
    exact ⟨by simp [hkeep b5], b1, b2, b3, b4⟩
  cases hp : pend with
  | none =>
    obtain ⟨f1, f2, f3⟩ := free hp
    have hno : takes (d.output o, i) = false := by
      rcases hv with hv | hv <;> simp [takes, SwapDev.output, SwapDev.outValid, f1, f2, hv, vAnd, vOr, vNot]
    rw [hno]
    by_cases ht : takes (o, i) = true
    · have h12 : o.valid = .one ∧ i.ready = .one := by simpa [takes] using ht
      have hs := (hframe ht).2 f1
      refine ⟨w', some o, htaken h12.1 h12.2 (hblockS h12.1 hs) (hoffer h12.1 hs) (.inl hs) (.inl f2), [], by simp [ht], by simp, fun _ => rfl⟩
    · have ht' : takes (o, i) = false := by simpa using ht
      obtain ⟨i1, i2, i3, i4, i5, i6⟩ := hidle ht' (.inl f2)
      refine ⟨w', none, ⟨hw', hheld, fun _ => ?_, fun b hb => (by cases hb)⟩, [], by simp [ht'], by simp, fun h => absurd h ht⟩
      rw [i4, i1, i2]
      exact ⟨f1, f2, f3⟩
  | some b =>
    obtain ⟨b1, b2, b3, b4, b5, b6⟩ := busy b hp
    have hcar := hemit b hp
    rcases b6 with ⟨m1, m2, m3⟩ | ⟨m1, m2, m3⟩
    · -- in the middle of a packet
      have hsame' := hblockP m3
      have hout : takes (d.output o, i) = takes (o, i) := by
        rcases hv with hv | hv <;> simp [takes, SwapDev.output, SwapDev.outValid, b2, m1, m2, hv, vAnd, vOr, vNot]
      rw [hout]
      by_cases ht : takes (o, i) = true
      · have h12 : o.valid = .one ∧ i.ready = .one := by simpa [takes] using ht
        refine ⟨w', some o, htaken h12.1 h12.2 hsame' (hkeep b5) (.inr m3) (.inl m2), [b], by simp [ht], ?_, fun _ => rfl⟩
        rw [if_pos ht]
        exact .cons ⟨w, hcar⟩ .nil
      · have ht' : takes (o, i) = false := by simpa using ht
        obtain ⟨i1, i2, i3, i4, i5, i6⟩ := hidle ht' (.inl m2)
        refine ⟨w', some b, ⟨hw', hheld, fun h => (by cases h), fun b' hb' => ?_⟩, [], by simp [ht'], by simp [ht'], fun h => absurd h ht⟩
        cases hb'
        rw [i1, i2, i3, i4, i5, i6, hsame']
        exact ⟨b1, b2, b3, b4, hkeep b5, .inl ⟨m1, m2, m3⟩⟩
    · -- the last beat of a packet
      have hsame' := hblockF m2
      have hov : d.outValid o = .one := by simp [SwapDev.outValid, m2, vOr]
      rcases hready with hr | hr
      · have ht' : takes (o, i) = false := by simp [takes, hr]
        obtain ⟨i1, i2, i3, i4, i5, i6⟩ := hidle ht' (.inr ⟨m2, hr⟩)
        refine ⟨w', some b, ⟨hw', hheld, fun h => (by cases h), fun b' hb' => ?_⟩, [], by simp [ht'], by simp [takes, hr], fun h => ?_⟩
        · cases hb'
          rw [i1, i2, i3, i4, i5, i6, hsame']
          exact ⟨b1, b2, b3, b4, hkeep b5, .inr ⟨m1, m2, m3⟩⟩
        · rw [ht'] at h; cases h
      · have hout : takes (d.output o, i) = true := by simp [takes, hr, SwapDev.output, hov]
        rw [hout]
        by_cases ht : takes (o, i) = true
        · have h12 : o.valid = .one ∧ i.ready = .one := by simpa [takes] using ht
          have hs := (hframe ht).2 (b2.trans m1)
          refine ⟨w', some o, htaken h12.1 h12.2 hsame' (hkeep b5) (.inl hs) (.inr m2), [b], by simp [ht], ?_, fun _ => rfl⟩
          rw [if_pos rfl]
          exact .cons ⟨w, hcar⟩ .nil
        · have ht' : takes (o, i) = false := by simpa using ht
          have hv0 : o.valid = .zero := by
            rcases hv with hv | hv
            · exact hv
            · simp [takes, hv, hr] at ht'
          refine ⟨w', none, ⟨hw', hheld, fun _ => ⟨?_, ?_, ?_⟩, fun b' hb' => (by cases hb')⟩, [b], by simp [ht'], ?_, fun h => absurd h ht⟩
          · simp [SwapDev.step, hv0, hr, vAnd, b2, m1]
          · simp [SwapDev.step, hv0, hr, vAnd, m2]
          · simp [SwapDev.step, hv0, hr, vAnd, m3]
          · rw [if_pos rfl]
            exact .cons ⟨w, hcar⟩ .nil

theorem take_iff (o : PkOut) (i : PkIn) (hv : Known o.valid) (hr : Known i.ready) : vAnd i.ready o.valid = .one ↔ takes (o, i) = true := by
  rcases hv with hv | hv <;> rcases hr with hr | hr <;> simp [takes, hv, hr, vAnd]

/-- start of packet on a beat exactly if the beat before it ended a packet -/
def FramedFrom : Logic → List PkOut → Prop
  | _, [] => True
  | e, o :: r => (o.sop = .one ↔ e = .one) ∧ FramedFrom o.eop r

/-- number of beats that start a packet -/
def begun (bs : List PkOut) : Nat := (bs.filter (fun o => o.sop == .one)).length

theorem beatsIn_cons (c : PkCfg) (hc : c.hasReady = true) (r : PkOut × PkIn) (t : List (PkOut × PkIn)) (h : inReset r.2.resetN r.2.reset = .ok false) :
    beatsIn c (r :: t) = (if takes r then [r.1] else []) ++ beatsIn c t := by
  rw [beatsIn, List.filterMap_cons, event_of c hc r h]
  cases takes r <;> rfl

theorem beatsWith_cons (k : PkCfg) (hc : k.hasReady = true) (r : PkOut × PkIn) (t : List (PkCfg × (PkOut × PkIn)))
    (h : inReset r.2.resetN r.2.reset = .ok false) :
    beatsWith ((k, r) :: t) = (if takes r then [(k, r.1)] else []) ++ beatsWith t := by
  rw [beatsWith, List.filterMap_cons]
  simp only [event_of k hc r h]
  cases takes r <;> rfl

/-- the device on a trace -/
theorem swap_run (inOrder : Bool) (c out : PkCfg) (hc : c.hasReady = true) (ho : out.hasReady = true) (t : List (PkOut × PkIn)) :
    ∀ (d : SwapDev) (g : Logic × Bool) (order w : Bool) (pend : Option PkOut) (csr : Nat → Option Bool),
    SwInv inOrder d g order w pend → Walk sopUpd SopAcc g t → (∀ r ∈ t, Known r.2.ready) →
    (∀ r ∈ t, inReset r.2.resetN r.2.reset = .ok false) → FramedFrom d.eop (beatsIn c t) →
    ∃ g' order' w' pend', SwInv inOrder (swapAfter d csr t) g' order' w' pend' ∧
      ∃ done : List PkOut, pend.toList ++ beatsIn c t = done ++ pend'.toList ∧
        List.Forall₂ (fun b q => ∃ w, Carries inOrder out w b q) done (beatsWith (swapRun inOrder out d g.1 order csr t)) := by
  induction t with
  | nil =>
    intro d g order w pend csr hinv _ _ _ _
    exact ⟨g, order, w, pend, hinv, [], by simp [beatsIn], by simp [swapRun, beatsWith]⟩
  | cons r t ih =>
    intro d g order w pend csr hinv hwalk hready hres hframe
    obtain ⟨hacc, hwalk⟩ := hwalk
    have hr0 := hres r (by simp)
    rw [beatsIn_cons c hc r t hr0] at hframe
    have hk := hready r (by simp)
    obtain ⟨o, i⟩ := r
    have htk := take_iff o i hacc.valid hk
    have hframe1 : takes (o, i) = true → (o.sop = .one ↔ d.eop = .one) := by
      intro h; rw [if_pos h] at hframe; exact hframe.1
    have hframe2 : FramedFrom (d.step o i.ready (csr 0)).eop (beatsIn c t) := by
      by_cases h : takes (o, i) = true
      · rw [if_pos h] at hframe
        have : (d.step o i.ready (csr 0)).eop = o.eop := by simp [SwapDev.step, htk.2 h]
        rw [this]; exact hframe.2
      · rw [if_neg h] at hframe
        have hn : ¬ vAnd i.ready o.valid = .one := fun h' => h (htk.1 h')
        have : (d.step o i.ready (csr 0)).eop = d.eop := by simp [SwapDev.step, hn]
        rw [this]; exact hframe
    obtain ⟨w1, pend1, hinv1, done1, hd1, hf1, -⟩ := swap_step inOrder out d g order w pend (o, i) (csr 0) hinv hacc hk hframe1
    obtain ⟨g2, order2, w2, pend2, hinv2, done2, hd2, hf2⟩ := ih _ (sopUpd g (o, i)) _ w1 pend1 (fun k => csr (k + 1)) hinv1 hwalk
      (fun q hq => hready q (by simp [hq])) (fun q hq => hres q (by simp [hq])) hframe2
    refine ⟨g2, order2, w2, pend2, hinv2, done1 ++ done2, ?_, ?_⟩
    · rw [beatsIn_cons c hc (o, i) t hr0, ← List.append_assoc, hd1, List.append_assoc, hd2, List.append_assoc]
    · simp only [swapRun]
      rw [beatsWith_cons { out with highFirst := setterOrder inOrder g.1 o.sop d.swapping order } ho (d.output o, i) _ hr0]
      exact List.rel_append hf1 hf2

theorem swap_count (c : PkCfg) (hc : c.hasReady = true) (t : List (PkOut × PkIn)) : ∀ (d : SwapDev) (g : Logic × Bool) (csr : Nat → Option Bool),
    Walk sopUpd SopAcc g t → (∀ r ∈ t, Known r.2.ready) → (∀ r ∈ t, inReset r.2.resetN r.2.reset = .ok false) →
    (swapAfter d csr t).count % 2 ^ 32 = (d.count + begun (beatsIn c t)) % 2 ^ 32 := by
  induction t with
  | nil => intro d g csr _ _ _; rfl
  | cons r t ih =>
    intro d g csr hwalk hready hres
    obtain ⟨hacc, hwalk⟩ := hwalk
    have hr0 := hres r (by simp)
    have hk := hready r (by simp)
    obtain ⟨o, i⟩ := r
    have htk := take_iff o i hacc.valid hk
    have h1 := ih (d.step o i.ready (csr 0)) (sopUpd g (o, i)) (fun k => csr (k + 1)) hwalk
      (fun q hq => hready q (by simp [hq])) (fun q hq => hres q (by simp [hq]))
    simp only [swapAfter]
    rw [h1, beatsIn_cons c hc (o, i) t hr0]
    by_cases h : takes (o, i) = true
    · have hv : o.valid = .one := by have : o.valid = .one ∧ i.ready = .one := by simpa [takes] using h
                                     exact this.1
      rw [if_pos h]
      by_cases hs : o.sop = .one
      · have : (d.step o i.ready (csr 0)).count = (d.count + 1) % 2 ^ 32 := by
          have hs' : vAnd o.sop o.valid = .one := by rw [hv, hs]; rfl
          simp [SwapDev.step, htk.2 h, hs']
        rw [this]
        simp only [begun, List.singleton_append, List.filter_cons, hs, beq_self_eq_true, if_true, List.length_cons]
        omega
      · have hs' : vAnd o.sop o.valid ≠ .one := by rcases hacc.sop hv with h' | h' <;> simp_all [vAnd]
        have : (d.step o i.ready (csr 0)).count = d.count := by simp [SwapDev.step, hs']
        rw [this]
        simp [begun, hs]
    · rw [if_neg h]
      have hn : ¬ vAnd i.ready o.valid = .one := fun h' => h (htk.1 h')
      have : (d.step o i.ready (csr 0)).count = d.count := by simp [SwapDev.step, hn]
      rw [this]
      rfl

theorem swapAfter_append (a b : List (PkOut × PkIn)) : ∀ (d : SwapDev) (csr : Nat → Option Bool),
    swapAfter d csr (a ++ b) = swapAfter (swapAfter d csr a) (fun k => csr (k + a.length)) b := by
  induction a with
  | nil => intro d csr; rfl
  | cons r a ih =>
    intro d csr
    obtain ⟨o, i⟩ := r
    simp only [List.cons_append, swapAfter, ih, List.length_cons]
    congr 1

/-- with nothing offered, one ready edge empties the pipeline -/
theorem swap_flush (t : List (PkOut × PkIn)) : ∀ (d : SwapDev) (csr : Nat → Option Bool), Known d.flush →
    (∀ r ∈ t, r.1.valid = .zero ∧ Known r.2.ready) → ((d.flush = .zero) ∨ ∃ r ∈ t, r.2.ready = .one) → (swapAfter d csr t).flush = .zero := by
  induction t with
  | nil =>
    intro d csr hf _ h
    rcases h with h | ⟨r, hr, -⟩
    · exact h
    · cases hr
  | cons r t ih =>
    intro d csr hf ht h
    obtain ⟨o, i⟩ := r
    obtain ⟨hv, hr⟩ := ht (o, i) (by simp)
    simp only at hv hr
    have hstep : (d.step o i.ready (csr 0)).flush = if i.ready = .one then .zero else d.flush := by
      rcases hf with hf | hf <;> rcases hr with hr | hr <;> simp [SwapDev.step, hv, hr, hf, vAnd, vNot]
    refine ih _ _ ?_ (fun q hq => ht q (by simp [hq])) ?_
    · rw [hstep]; split
      · exact .inl rfl
      · exact hf
    · rcases h with h | ⟨q, hq, hq2⟩
      · left; rw [hstep, h]; simp
      · rcases List.mem_cons.1 hq with rfl | hq
        · left; rw [hstep]; simp only at hq2; simp [hq2]
        · exact .inr ⟨q, hq, hq2⟩

/-! ### Byte order -/

theorem byteswap_short (v : LogicArray) (h : v.length ≤ 8) : byteswap v = v := by
  unfold byteswap; simp [h]

theorem byteswap_append (n : Nat) : ∀ (u v : LogicArray), u.length = 8 * n → byteswap (u ++ v) = byteswap v ++ byteswap u := by
  induction n with
  | zero =>
    intro u v h
    have : u = [] := List.eq_nil_of_length_eq_zero (by omega)
    subst this
    simp [byteswap_short []]
  | succ n ih =>
    intro u v h
    by_cases hs : (u ++ v).length ≤ 8
    · rw [List.length_append] at hs
      have : v = [] := List.eq_nil_of_length_eq_zero (by omega)
      subst this
      simp [byteswap_short []]
    · have hd : (u ++ v).drop 8 = u.drop 8 ++ v := by rw [List.drop_append_of_le_length (by omega)]
      have ht : (u ++ v).take 8 = u.take 8 := by rw [List.take_append_of_le_length (by omega)]
      rw [byteswap, if_neg hs, hd, ht, ih (u.drop 8) v (by simp; omega)]
      by_cases hu : u.length ≤ 8
      · have h8 : u.length = 8 := by omega
        rw [List.drop_eq_nil_of_le (by omega), List.take_of_length_le (by omega), byteswap_short [] (by simp), byteswap_short u hu]
        simp
      · rw [List.append_assoc]
        congr 1
        conv_rhs => rw [byteswap, if_neg hu]

theorem byteswap_length (n : Nat) : ∀ v : LogicArray, v.length = n → (byteswap v).length = n := by
  induction n using Nat.strongRecOn with
  | ind n ih =>
    intro v h
    rw [byteswap]
    split
    · exact h
    · rw [List.length_append, ih (n - 8) (by omega) (v.drop 8) (by simp [h])]
      simp; omega

theorem byteswap_join (b : Bytes) : byteswap (joinBytes b) = joinBytes b.reverse := by
  induction b with
  | nil => rw [byteswap_short _ (by simp [joinBytes])]; rfl
  | cons x b ih =>
    have h1 : joinBytes (x :: b) = joinBytes [x] ++ joinBytes b := by simp [joinBytes]
    have h2 : (joinBytes [x]).length = 8 := by rw [joinBytes_length]; simp
    rw [h1, byteswap_append 1 _ _ (by omega), ih, byteswap_short (joinBytes [x]) (by omega), List.reverse_cons]
    simp [joinBytes]

/-! ### Packets -/

theorem carries_body (c : PkCfg) (hch : c.channelW = none) (n : Nat) (b : Bytes) (w : Bool) (o : PkOut) (q : PkCfg × PkOut)
    (h : BodyBeat c n b none o) (hc : Carries c.highFirst c w o q) : BodyBeat q.1 n b none q.2 := by
  refine ⟨by rw [hc.eop]; exact h.eop, h.len, ?_, fun w' hw' => ?_⟩
  · rw [hc.data, h.data, hc.cfg, wordBits_full _ _ _ h.len, wordBits_full _ _ _ h.len]
    cases w <;> cases c.highFirst <;> simp [byteswap_join]
  · rw [hc.cfg] at hw'; simp only at hw'; rw [hch] at hw'; cases hw'

theorem carries_last (c : PkCfg) (hch : c.channelW = none) (n : Nat) (b : Bytes) (w : Bool) (o : PkOut) (q : PkCfg × PkOut)
    (h : LastBeat c n b none o) (hc : Carries c.highFirst c w o q) : LastBeat q.1 n b none q.2 := by
  refine ⟨by rw [hc.eop]; exact h.eop, h.len, ?_, ?_, fun w' hw' => ?_⟩
  · obtain ⟨junk, hj, hd⟩ := h.data
    rw [hc.data, hd, hc.cfg]
    cases w with
    | false => exact ⟨junk, hj, by simp⟩
    | true =>
      refine ⟨byteswap junk, byteswap_length _ _ hj, ?_⟩
      cases c.highFirst with
      | true => simp [byteswap_append b.length _ _ (joinBytes_length b), byteswap_join]
      | false => simp [byteswap_append _ _ _ hj, byteswap_join]
  · have hu : q.1.useEmpty = c.useEmpty := by rw [hc.cfg]; rfl
    have hs : q.1.bitsPerSymbol = c.bitsPerSymbol := by rw [hc.cfg]
    rw [hu, hs, hc.empty]
    exact h.empty
  · rw [hc.cfg] at hw'; simp only at hw'; rw [hch] at hw'; cases hw'

theorem carries_bodies (c : PkCfg) (hch : c.channelW = none) (n : Nat) (bodies : List (Bytes × PkOut)) : ∀ qs : List (PkCfg × PkOut),
    (∀ p ∈ bodies, BodyBeat c n p.1 none p.2) → List.Forall₂ (fun b q => ∃ w, Carries c.highFirst c w b q) (bodies.map Prod.snd) qs →
    ∃ bodies' : List (Bytes × PkCfg × PkOut), bodies'.map Prod.snd = qs ∧ bodies'.map Prod.fst = bodies.map Prod.fst ∧
      ∀ p ∈ bodies', BodyBeat p.2.1 n p.1 none p.2.2 := by
  induction bodies with
  | nil => intro qs _ h; cases h; exact ⟨[], rfl, rfl, by simp⟩
  | cons p r ih =>
    intro qs h1 h2
    rw [List.map_cons] at h2
    obtain ⟨q, qs', ⟨w, hw⟩, h3, rfl⟩ := List.forall₂_cons_left_iff.1 h2
    obtain ⟨bs, h4, h5, h6⟩ := ih qs' (fun x hx => h1 x (by simp [hx])) h3
    refine ⟨(p.1, q) :: bs, by simp [h4], by simp [h5], fun x hx => ?_⟩
    rcases List.mem_cons.1 hx with rfl | hx
    · exact carries_body c hch n p.1 w p.2 q (h1 p (by simp)) hw
    · exact h6 x hx

theorem forall2_get {α β : Type} {R : α → β → Prop} {l : List α} {m : List β} (h : List.Forall₂ R l m) : ∀ (j : Nat) (y : β), m[j]? = some y →
    ∃ x, l[j]? = some x ∧ R x y := by
  induction h with
  | nil => intro j y hy; simp at hy
  | cons h1 h2 ih =>
    intro j y hy
    cases j with
    | zero => simp at hy; subst hy; exact ⟨_, rfl, h1⟩
    | succ j => simpa using ih j y (by simpa using hy)

theorem carries_packet (c : PkCfg) (hch : c.channelW = none) (n : Nat) (pkt : Bytes) (beats : List PkOut) (qs : List (PkCfg × PkOut))
    (h : PacketOn c n pkt none beats) (hq : List.Forall₂ (fun b q => ∃ w, Carries c.highFirst c w b q) beats qs) : PacketWith n pkt none qs := by
  refine ⟨?_, ?_, fun p _ x hx => (by cases hx), fun _ _ _ => rfl⟩
  · obtain ⟨bodies, lastB, last, rfl, rfl, h1, h2⟩ := h.shape
    have hl := hq.length_eq
    simp only [List.length_append, List.length_map, List.length_cons, List.length_nil] at hl
    have hsplit : qs = qs.take bodies.length ++ qs.drop bodies.length := (List.take_append_drop _ _).symm
    have ha := List.forall₂_take bodies.length hq
    have hb := List.forall₂_drop bodies.length hq
    rw [List.take_left' (by simp)] at ha
    rw [List.drop_left' (by simp)] at hb
    obtain ⟨bs, h4, h5, h6⟩ := carries_bodies c hch n bodies _ h1 ha
    obtain ⟨q, qs', ⟨w, hw⟩, h7, h8⟩ := List.forall₂_cons_left_iff.1 hb
    cases h7
    refine ⟨bs, lastB, q, ?_, by rw [h5], h6, carries_last c hch n lastB w last q h2 hw⟩
    rw [h4, ← h8]
    exact hsplit
  · intro j q hj
    obtain ⟨b, hb, w, hw⟩ := forall2_get hq j q hj
    rw [hw.sop]
    exact h.sop j b hb

theorem forall2_flatMap {α β γ : Type} (R : α → β → Prop) (f : γ → List α) (ps : List γ) : ∀ L : List β, List.Forall₂ R (ps.flatMap f) L →
    ∃ qs : List (List β), L = qs.flatten ∧ List.Forall₂ (fun p q => List.Forall₂ R (f p) q) ps qs := by
  induction ps with
  | nil => intro L h; rw [List.flatMap_nil] at h; cases h; exact ⟨[], rfl, .nil⟩
  | cons p r ih =>
    intro L h
    rw [List.flatMap_cons] at h
    have ha := List.forall₂_take (f p).length h
    have hb := List.forall₂_drop (f p).length h
    rw [List.take_left' rfl] at ha
    rw [List.drop_left' rfl] at hb
    obtain ⟨qs, h1, h2⟩ := ih _ hb
    exact ⟨L.take (f p).length :: qs, by rw [List.flatten_cons, ← h1, List.take_append_drop], .cons ha h2⟩

theorem framed_rest (bodies : List PkOut) (last : PkOut) (rest : List PkOut) : ∀ e : Logic, e ≠ .one → (∀ o ∈ bodies, o.sop ≠ .one ∧ o.eop ≠ .one) →
    last.sop ≠ .one → FramedFrom last.eop rest → FramedFrom e (bodies ++ [last] ++ rest) := by
  induction bodies with
  | nil => intro e he _ hl hr; exact ⟨⟨fun h => absurd h hl, fun h => absurd h he⟩, hr⟩
  | cons o bodies ih =>
    intro e he h hl hr
    obtain ⟨h1, h2⟩ := h o (by simp)
    exact ⟨⟨fun h => absurd h h1, fun h => absurd h he⟩, ih o.eop h2 (fun q hq => h q (by simp [hq])) hl hr⟩

theorem framed_packet (c : PkCfg) (n : Nat) (pkt : Bytes) (ch : Option Nat) (beats rest : List PkOut) (h : PacketOn c n pkt ch beats)
    (hr : FramedFrom .one rest) : FramedFrom .one (beats ++ rest) ∧ begun (beats ++ rest) = 1 + begun rest := by
  obtain ⟨bodies, lastB, last, rfl, -, h1, h2⟩ := h.shape
  have hs := h.sop
  cases bodies with
  | nil =>
    have := (hs 0 last (by simp)).2 rfl
    refine ⟨⟨⟨fun _ => rfl, fun _ => this⟩, by rw [h2.eop]; exact hr⟩, ?_⟩
    simp [begun, this, Nat.add_comm]
  | cons p r =>
    have h0 := (hs 0 p.2 (by simp)).2 rfl
    have hrest : ∀ o ∈ r.map Prod.snd ++ [last], o.sop ≠ .one := by
      intro o ho hso
      obtain ⟨j, hj⟩ := List.mem_iff_getElem?.1 ho
      have := (hs (j + 1) o (by simpa using hj)).1 hso
      omega
    refine ⟨⟨⟨fun _ => rfl, fun _ => h0⟩, ?_⟩, ?_⟩
    · refine framed_rest _ last rest _ (h1 p (by simp)).eop (fun o ho => ⟨hrest o (by simp only [List.mem_append]; exact .inl ho), ?_⟩) (hrest last (by simp)) (by rw [h2.eop]; exact hr)
      obtain ⟨q, hq, rfl⟩ := List.mem_map.1 ho
      exact (h1 q (by simp [hq])).eop
    · have hf : (r.map Prod.snd ++ [last]).filter (fun o => o.sop == .one) = [] := by
        rw [List.filter_eq_nil_iff]
        intro o ho
        simpa using hrest o ho
      simp only [begun, List.map_cons, List.cons_append, List.filter_cons, h0, beq_self_eq_true, if_true, List.length_cons]
      rw [List.filter_append, hf]
      simp [Nat.add_comm]

theorem framed_packets (c : PkCfg) (n : Nat) (ps : List (Bytes × Option Nat × List PkOut)) (h : ∀ p ∈ ps, PacketOn c n p.1 p.2.1 p.2.2) :
    FramedFrom .one (ps.flatMap (fun p => p.2.2)) ∧ begun (ps.flatMap (fun p => p.2.2)) = ps.length := by
  induction ps with
  | nil => exact ⟨trivial, rfl⟩
  | cons p r ih =>
    obtain ⟨h1, h2⟩ := ih (fun q hq => h q (by simp [hq]))
    obtain ⟨h3, h4⟩ := framed_packet c n _ _ _ _ (h p (by simp)) h1
    rw [List.flatMap_cons]
    exact ⟨h3, by rw [h4, h2, List.length_cons, Nat.add_comm]⟩

theorem framed_prefix (a b : List PkOut) : ∀ e, FramedFrom e (a ++ b) → FramedFrom e a := by
  induction a with
  | nil => intro e _; trivial
  | cons o a ih => intro e h; exact ⟨h.1, ih _ h.2⟩

/-- a trace whose beats are an initial part of the driver's -/
theorem driver_packets (c : PkCfg) (n : Nat) (hb : ByteBus c n) (hch : c.channelW = none) (h8 : c.bitsPerSymbol = 8) (items : List PkItem)
    (hi : ∀ p ∈ items, p.pkt ≠ [] ∧ p.channel = none)
    (t : List (PkOut × PkIn)) (hr : ∀ r ∈ t, inReset r.2.resetN r.2.reset = .ok false) (k : Nat)
    (ht : (pkStream c).taken t = (items.flatMap (fun p => beatsOf c n p.pkt (chNum p.channel))).take k) :
    ∃ ps : List (Bytes × Option Nat × List PkOut), ps.map (fun p => p.1) = items.map (fun p => p.pkt) ∧ (∀ p ∈ ps, p.2.1 = none) ∧
      (∀ p ∈ ps, PacketOn c n p.1 p.2.1 p.2.2) ∧ beatsIn c t <+: ps.flatMap (fun p => p.2.2) ∧
      ((items.flatMap (fun p => beatsOf c n p.pkt (chNum p.channel))).length ≤ k → beatsIn c t = ps.flatMap (fun p => p.2.2)) := by
  let all := items.flatMap (fun p => beatsOf c n p.pkt (chNum p.channel))
  have hL : (beatsIn c t ++ (all.drop k).map ofBeat).map (pkStream c).payload = all := by
    rw [List.map_append, beatsIn_taken c t hr, ht, List.map_map]
    have : (all.drop k).map ((pkStream c).payload ∘ ofBeat) = all.drop k := by
      conv_rhs => rw [← List.map_id (all.drop k)]
      apply List.map_congr_left
      intro b hbm
      obtain ⟨p, -, hp⟩ := List.mem_flatMap.1 (List.mem_of_mem_drop hbm)
      exact payload_ofBeat c n _ _ b hp
    rw [this]
    exact List.take_append_drop k all
  obtain ⟨ps, h1, h2, h3⟩ := split_flatMap _ _ _ _ hL
  refine ⟨ps.map (fun q => (q.1.pkt, none, q.2)), ?_, ?_, ?_, ?_, ?_⟩
  · rw [← h1, List.map_map, List.map_map]; rfl
  · intro p hp
    obtain ⟨q, -, rfl⟩ := List.mem_map.1 hp
    rfl
  · intro p hp
    obtain ⟨q, hq, rfl⟩ := List.mem_map.1 hp
    have hqi : q.1 ∈ items := by rw [← h1]; exact List.mem_map_of_mem hq
    obtain ⟨hne, hcn⟩ := hi q.1 hqi
    have hok : ChannelOk c q.1.channel := by rw [hcn]; simp [ChannelOk, hch]
    have := packetOn_of_beats c n hb q.1.channel hok q.1.pkt q.1.pkt q.2 (h3 q hq)
      (packet_shape c n hb q.1.channel hok _ true q.1.pkt q.2 hne (Nat.le_refl _) (.inl h8) (by rw [h3 q hq, beatsOf_eq]))
    rw [hch] at this
    exact this
  · rw [List.flatMap_map]
    exact ⟨_, h2⟩
  · intro hk
    have h7 : all.drop k = [] := List.drop_eq_nil_of_le hk
    rw [h7, List.map_nil, List.append_nil] at h2
    rw [List.flatMap_map]
    exact h2

theorem carries_eop (c : PkCfg) (done : List PkOut) (E : List (PkCfg × PkOut))
    (h : List.Forall₂ (fun b q => ∃ w, Carries c.highFirst c w b q) done E) :
    (E.map Prod.snd).map (fun o => o.eop) = done.map (fun o => o.eop) := by
  induction h with
  | nil => rfl
  | cons h1 h2 ih =>
    obtain ⟨w, hw⟩ := h1
    rw [List.map_cons, List.map_cons, List.map_cons, hw.eop, ih]

theorem carries_packets (c : PkCfg) (n : Nat) (hch : c.channelW = none) (ps : List (Bytes × Option Nat × List PkOut)) (qs : List (List (PkCfg × PkOut)))
    (hq2 : List.Forall₂ (fun p q => List.Forall₂ (fun b q => ∃ w, Carries c.highFirst c w b q) p.2.2 q) ps qs) :
    (∀ p ∈ ps, p.2.1 = none) → (∀ p ∈ ps, PacketOn c n p.1 p.2.1 p.2.2) →
    ∃ ps' : List (Bytes × Option Nat × List (PkCfg × PkOut)), (∀ p ∈ ps', PacketWith n p.1 p.2.1 p.2.2) ∧ ps'.flatMap (fun p => p.2.2) = qs.flatten ∧
      ps'.map (fun p => reportOf c p.1 p.2.1) = ps.map (fun p => reportOf c p.1 none) := by
  induction hq2 with
  | nil => intro _ _; exact ⟨[], by simp, rfl, rfl⟩
  | @cons a b l1 l2 h1 h2 ih =>
    intro hn hps
    obtain ⟨ps', i1, i2, i3⟩ := ih (fun p hp => hn p (by simp [hp])) (fun p hp => hps p (by simp [hp]))
    refine ⟨(a.1, none, b) :: ps', fun p hp => ?_, ?_, ?_⟩
    · rcases List.mem_cons.1 hp with rfl | hp
      · have := hps a (by simp)
        rw [hn a (by simp)] at this
        exact carries_packet c hch n _ _ _ this h1
      · exact i1 p hp
    · rw [List.flatMap_cons, i2]; rfl
    · rw [List.map_cons, i3]; rfl

/-- the output monitor on what the device makes of packets -/
theorem swap_monitor (c : PkCfg) (n : Nat) (hch : c.channelW = none) (hrd : c.hasReady = true) (hto : c.invalidTimeout = 0)
    (ps : List (Bytes × Option Nat × List PkOut)) (hn : ∀ p ∈ ps, p.2.1 = none) (hps : ∀ p ∈ ps, PacketOn c n p.1 p.2.1 p.2.2)
    (data empty : LogicArray) (prev : Logic) (order : Bool) (csr : Nat → Option Bool) (t : List (PkOut × PkIn))
    (hwalk : Walk sopUpd SopAcc (prev, false) t) (hready : ∀ r ∈ t, Known r.2.ready) (hres : ∀ r ∈ t, inReset r.2.resetN r.2.reset = .ok false)
    (hp : beatsIn c t <+: ps.flatMap (fun p => p.2.2)) :
    ∃ (pend : Option PkOut) (done : List PkOut) (st : PkState), beatsIn c t = done ++ pend.toList ∧
      ((swapAfter (.reset data empty) csr t).flush = .zero ∨ (swapAfter (.reset data empty) csr t).flush = .one) ∧
      (pend = none → (swapAfter (.reset data empty) csr t).eop = .one ∧ (swapAfter (.reset data empty) csr t).flush = .zero ∧
        (swapAfter (.reset data empty) csr t).inPacket = .zero) ∧
      ((swapAfter (.reset data empty) csr t).flush = .zero → ∀ b, pend = some b → b.eop ≠ .one) ∧
      (beatsIn c ((swapRun c.highFirst c (.reset data empty) prev order csr t).map Prod.snd)).map (fun o => o.eop) = done.map (fun o => o.eop) ∧
      pkMonitorDyn (swapRun c.highFirst c (.reset data empty) prev order csr t) {} =
        ((ps.map (fun p => reportOf c p.1 none)).take (ended done), .ok st) := by
  obtain ⟨more, hmore⟩ := hp
  obtain ⟨hfr, -⟩ := framed_packets c n ps hps
  have hinit : SwInv c.highFirst (.reset data empty) (prev, false) order false none :=
    ⟨rfl, fun _ h => (by cases h), fun _ => ⟨rfl, rfl, rfl⟩, fun b h => (by cases h)⟩
  obtain ⟨g', order', w', pend, hinv, done, hd, hf⟩ := swap_run c.highFirst c c hrd hrd t _ _ order false none csr hinit hwalk hready hres
    (framed_prefix _ more _ (by rw [hmore]; exact hfr))
  rw [Option.toList_none, List.nil_append] at hd
  let tr := swapRun c.highFirst c (.reset data empty) prev order csr t
  -- every configuration is that of the same monitor
  have hcfg : ∀ (t : List (PkOut × PkIn)) (d : SwapDev) (prev : Logic) (order : Bool) (csr : Nat → Option Bool),
      (∀ r ∈ t, inReset r.2.resetN r.2.reset = .ok false) →
      ∀ r ∈ swapRun c.highFirst c d prev order csr t, SameMonitor c r.1 ∧ r.1.invalidTimeout = 0 ∧ ResetReadable r.2.2 := by
    intro t
    induction t with
    | nil => intro d prev order csr _ r hr; cases hr
    | cons x t ih =>
      intro d prev order csr hx r hr
      obtain ⟨o, i⟩ := x
      rw [swapRun] at hr
      rcases List.mem_cons.1 hr with rfl | hr
      · exact ⟨⟨rfl, rfl, rfl, rfl, rfl, rfl⟩, hto, ⟨false, hx (o, i) (by simp)⟩⟩
      · exact ih _ _ _ _ (fun q hq => hx q (by simp [hq])) r hr
  have htr := hcfg t (.reset data empty) prev order csr hres
  -- the beats still to come, as if they came out unchanged
  have hext : List.Forall₂ (fun b q => ∃ w, Carries c.highFirst c w b q) (pend.toList ++ more) ((pend.toList ++ more).map (fun b => (c, b))) := by
    rw [List.forall₂_map_right_iff]
    exact List.forall₂_same.2 fun b _ => ⟨false, by simp, rfl, rfl, rfl, rfl⟩
  have hall := List.rel_append hf hext
  dsimp only at hall
  rw [← List.append_assoc, ← hd, hmore] at hall
  obtain ⟨qs, hq1, hq2⟩ := forall2_flatMap _ _ ps _ hall
  -- the packets as the output monitor sees them
  obtain ⟨ps', hp1, hp2, hp3⟩ := carries_packets c n hch ps qs hq2 hn hps
  have hcp : ∀ p ∈ ps', ∀ q ∈ p.2.2, SameMonitor c q.1 := by
    intro p hp q hq
    have hm : q ∈ qs.flatten := by rw [← hp2]; exact List.mem_flatMap.2 ⟨p, hp, hq⟩
    rw [← hq1] at hm
    rcases List.mem_append.1 hm with hm | hm
    · obtain ⟨r, hr1, hr2⟩ := List.mem_filterMap.1 hm
      obtain ⟨o, -, rfl⟩ := Option.map_eq_some_iff.1 hr2
      exact (htr r hr1).1
    · obtain ⟨b, -, rfl⟩ := List.mem_map.1 hm
      exact ⟨rfl, rfl, rfl, rfl, rfl, rfl⟩
  obtain ⟨st, hst⟩ := pkMonitorDyn_packets c n ps' hp1 hcp tr (fun r hr => (htr r hr).1) (fun r hr => (htr r hr).2.2)
    (by
      intro a k r b hab hne
      exact absurd (htr (k, r) (by show (k, r) ∈ tr; rw [hab]; simp)).2.1 hne)
    (by rw [hp2, ← hq1]; exact ⟨_, rfl⟩)
  have heop : (beatsIn c (tr.map Prod.snd)).map (fun o => o.eop) = done.map (fun o => o.eop) := by
    rw [← beatsWith_snd c tr (fun r hr => (htr r hr).1)]
    exact carries_eop c _ _ hf
  have hend : ended (beatsIn c (tr.map Prod.snd)) = ended done := by
    have hcount : ∀ l : List PkOut, ended l = ((l.map (fun o => o.eop)).filter (fun e => e == .one)).length := by
      intro l; rw [List.filter_map, List.length_map]; rfl
    rw [hcount, heop, ← hcount]
  refine ⟨pend, done, st, hd, ?_, hinv.free, ?_, heop, ?_⟩
  · cases hpe : pend with
    | none => exact .inl (hinv.free hpe).2.1
    | some b =>
      rcases (hinv.busy b hpe).2.2.2.2.2 with ⟨-, h, -⟩ | ⟨-, h, -⟩
      · exact .inl h
      · exact .inr h
  · intro hfl b hb he
    rcases (hinv.busy b hb).2.2.2.2.2 with ⟨h, -, -⟩ | ⟨-, h, -⟩
    · rw [h] at he; cases he
    · rw [h] at hfl; cases hfl
  · rw [← hp3, ← hend]; exact hst

end CocotbBus
