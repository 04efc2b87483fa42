import Verif.Proof.AxiStutter

/-! # What stands on the write data channel at every edge -/

namespace CocotbBus
open Spec Coro
variable {P : Type}

theorem offersWithGaps_short (gap : Nat) (shown : Option P) (l : List P) : ∀ (k : Nat) (rs : List Bool), rs.length ≤ k →
    offersWithGaps gap shown k l rs = List.replicate rs.length shown := by
  intro k
  induction k with
  | zero => intro rs h; have := List.eq_nil_of_length_eq_zero (Nat.le_zero.mp h); subst this; simp [offersWithGaps]
  | succ k ih =>
    intro rs h
    cases rs with
    | nil => simp [offersWithGaps]
    | cons b rs => rw [offersWithGaps, ih rs (by simpa using h)]; rfl

theorem offersWithGaps_wait (gap : Nat) (shown : Option P) (l : List P) : ∀ (k : Nat) (rs rs' : List Bool), rs.length = k →
    offersWithGaps gap shown k l (rs ++ rs') = List.replicate k shown ++ offersWithGaps gap shown 0 l rs' := by
  intro k
  induction k with
  | zero => intro rs rs' h; have := List.eq_nil_of_length_eq_zero h; subst this; rfl
  | succ k ih =>
    intro rs rs' h
    cases rs with
    | nil => simp at h
    | cons b rs => rw [List.cons_append, offersWithGaps, ih rs rs' (by simpa using h)]; rfl

theorem offersWithGaps_none (gap : Nat) : ∀ rs : List Bool, offersWithGaps gap none 0 ([] : List P) rs = List.replicate rs.length none := by
  intro rs
  induction rs with
  | nil => simp [offersWithGaps]
  | cons b rs ih => rw [offersWithGaps, ih]; rfl

theorem offersWithGaps_held (gap : Nat) (p : P) (l : List P) (rs' : List Bool) : ∀ (rs : List Bool) (shown : Option P), (∀ b ∈ rs, b = false) →
    ∃ shown', offersWithGaps gap shown 0 (p :: l) (rs ++ rs') = List.replicate rs.length (some p) ++ offersWithGaps gap shown' 0 (p :: l) rs' := by
  intro rs
  induction rs with
  | nil => intro shown _; exact ⟨shown, rfl⟩
  | cons b rs ih =>
    intro shown h
    have hb := h b (by simp)
    subst hb
    obtain ⟨shown', h'⟩ := ih (some p) (fun b hb => h b (by simp [hb]))
    exact ⟨shown', by rw [List.cons_append, offersWithGaps, if_pos rfl, h']; rfl⟩

theorem offersOf_const {I O : Type} (V : Stream I O P) (o : O) (t : List (O × I)) (h : ∀ q ∈ t, q.1 = o) : offersOf V t = List.replicate t.length (V.offer o) := by
  induction t with
  | nil => rfl
  | cons q t ih => simp only [offersOf, List.map_cons] at *; rw [ih (fun q hq => h q (by simp [hq])), h q (by simp)]; rfl

theorem edges_length {I O : Type} (n : Nat) : ∀ (s u : Sim I O), ((edges n : M I O Unit) s).2 = .ok () u → ((edges n : M I O Unit) s).1.length = n := by
  induction n with
  | zero => intro s u _; rfl
  | succ n ih =>
    intro s u h
    rw [edges] at h ⊢
    cases hr : s.rest with
    | nil => rw [bind_awaitEdge_nil _ _ hr] at h; cases h
    | cons i r => rw [bind_awaitEdge_cons _ _ i r hr] at h ⊢; simp only [List.length_cons]; rw [ih _ u h]

theorem sendBeats_gaps (c : AxCfg) (dl : Nat) (l : List (Nat × Nat)) (hl : ∀ x ∈ l, x.1 < 2 ^ (8 * c.dataBytes) ∧ x.2 < 2 ^ c.dataBytes) (hne : l ≠ []) :
    ∀ s : Sim AxIn WOut, s.phase ≠ .ro →
    let r := sendBeats c dl l s
    (∀ rs, (∃ s', r.2 = .ok () s') → offersWithGaps dl ((wStream c).offer s.out) dl (wReqs c l) (readiesOf (wStream c) r.1 ++ rs) =
        offersOf (wStream c) r.1 ++ List.replicate rs.length none) ∧
    ((∃ s', r.2 = .blocked s') → offersWithGaps dl ((wStream c).offer s.out) dl (wReqs c l) (readiesOf (wStream c) r.1) = offersOf (wStream c) r.1) := by
  induction l with
  | nil => exact absurd rfl hne
  | cons q r ih =>
    intro s hs
    obtain ⟨w, st⟩ := q
    obtain ⟨h1, h2⟩ := hl (w, st) List.mem_cons_self
    have he : (if r.isEmpty = true then Logic.one else .zero) = if r = [] then .one else .zero := by cases r <;> rfl
    obtain ⟨e1, e2, e3⟩ := edges_const dl s hs
    have e4 := edges_length dl s
    have hoc := offersOf_const (wStream c) s.out _ e1
    rw [sendBeats_cons, beatM_delay, bind_assoc_run, bind_run]
    generalize hE : (edges dl : M AxIn WOut Unit) s = E at *
    have hE2 : E = (E.1, E.2) := rfl
    rcases e3 with ⟨u, u1, u2, u3⟩ | ⟨u, u1⟩
    · have e5 := e4 u u1
      rw [hE2, u1, andThen_ok, bind_run]
      have hb := (beatM_offers' c r.isEmpty w st h1 h2 u u2)
      rw [he] at hb
      generalize hB : beatM c 0 r.isEmpty w st u = B at *
      have hwait : ∀ rs, offersWithGaps dl ((wStream c).offer s.out) dl (wReqs c ((w, st) :: r)) (readiesOf (wStream c) E.1 ++ rs) =
          offersOf (wStream c) E.1 ++ offersWithGaps dl ((wStream c).offer s.out) 0 (wReqs c ((w, st) :: r)) rs := by
        intro rs
        rw [offersWithGaps_wait _ _ _ _ _ _ (by simp [readiesOf, e5]), hoc, e5]
      rw [wReqs] at hwait ⊢
      generalize hp : (⟨natToBits (8 * c.dataBytes) w, natToBits c.dataBytes st, if c.hasWlast = true then some (if r = [] then Logic.one else Logic.zero) else none⟩ : WReq) = p at *
      obtain ⟨idle, held, b1, b2, b3⟩ := hb
      have hheld : offersOf (wStream c) held = List.replicate held.length (some p) := by
        unfold offersOf
        rw [List.eq_replicate_iff]
        refine ⟨by simp, ?_⟩
        intro b hb
        obtain ⟨q, hq, rfl⟩ := List.mem_map.1 hb
        simp [Stream.offer, (b2 q hq).1, (b2 q hq).2.1]
      have hready : ∀ b ∈ readiesOf (wStream c) held, b = false := by
        intro b hb
        obtain ⟨q, hq, rfl⟩ := List.mem_map.1 hb
        exact (b2 q hq).2.2
      rcases b3 with ⟨s', rfl, -, hi⟩ | ⟨hi, ⟨s', rfl, -, -⟩ | ⟨q, a, s', rfl, q1, q2, q3, q4⟩⟩
      · have hi0 : idle = [] := List.eq_nil_of_length_eq_zero (Nat.le_zero.mp hi)
        subst hi0
        rw [andThen_blocked]
        refine ⟨fun rs ⟨_, h⟩ => (nomatch h), fun _ => ?_⟩
        simp only [List.append_nil]
        have := hwait []
        rw [List.append_nil] at this
        rw [this]
        simp [offersWithGaps]
      · have hi0 : idle = [] := List.eq_nil_of_length_eq_zero hi
        subst hi0
        rw [andThen_blocked]
        refine ⟨fun rs ⟨_, h⟩ => (nomatch h), fun _ => ?_⟩
        simp only [List.nil_append]
        have ha : readiesOf (wStream c) (E.1 ++ held) = readiesOf (wStream c) E.1 ++ readiesOf (wStream c) held := by simp [readiesOf]
        have ho : offersOf (wStream c) (E.1 ++ held) = offersOf (wStream c) E.1 ++ offersOf (wStream c) held := by simp [offersOf]
        rw [ha, ho, hwait]
        obtain ⟨sh, hsh⟩ := offersWithGaps_held dl p (wReqs c r) [] (readiesOf (wStream c) held) ((wStream c).offer s.out) hready
        rw [List.append_nil] at hsh
        rw [hsh, hheld]
        simp [offersWithGaps, readiesOf]
      · have hi0 : idle = [] := List.eq_nil_of_length_eq_zero hi
        subst hi0
        rw [andThen_ok]
        simp only [List.nil_append]
        have hq : (wStream c).offer q.1 = some p := by simp [Stream.offer, q1, q2]
        have hstep : ∀ (t : List (WOut × AxIn)) (rs : List Bool),
            offersWithGaps dl ((wStream c).offer s.out) dl (p :: wReqs c r) (readiesOf (wStream c) (E.1 ++ (held ++ [q] ++ t)) ++ rs) =
            offersOf (wStream c) (E.1 ++ (held ++ [q])) ++ (if wReqs c r = [] then offersWithGaps dl none 0 [] (readiesOf (wStream c) t ++ rs)
              else offersWithGaps dl (some p) dl (wReqs c r) (readiesOf (wStream c) t ++ rs)) := by
          intro t rs
          have ha : readiesOf (wStream c) (E.1 ++ (held ++ [q] ++ t)) ++ rs = readiesOf (wStream c) E.1 ++ (readiesOf (wStream c) held ++ (true :: (readiesOf (wStream c) t ++ rs))) := by
            simp [readiesOf, q3]
          have ho : offersOf (wStream c) (E.1 ++ (held ++ [q])) = offersOf (wStream c) E.1 ++ (List.replicate held.length (some p) ++ [some p]) := by
            rw [← hheld]; simp [offersOf, hq]
          rw [ha, ho, hwait]
          obtain ⟨sh, hsh⟩ := offersWithGaps_held dl p (wReqs c r) (true :: (readiesOf (wStream c) t ++ rs)) (readiesOf (wStream c) held) ((wStream c).offer s.out) hready
          rw [hsh, offersWithGaps]
          simp [readiesOf]
        cases hr : r with
        | nil =>
          subst hr
          have hpure : sendBeats c dl [] s' = ([], .ok () s') := rfl
          rw [hpure]
          refine ⟨fun rs _ => ?_, fun ⟨_, h⟩ => by cases h⟩
          simp only
          rw [hstep [] rs]
          simp [wReqs, readiesOf, offersWithGaps_none]
        | cons q' r' =>
          have hne' : r ≠ [] := by rw [hr]; simp
          have hne2 := wReqs_ne c r hne'
          rw [← hr]
          obtain ⟨p3, p4, p5⟩ := q4
          obtain ⟨p6, p7⟩ := p5 (by rw [hr]; rfl)
          have hoff : (wStream c).offer s'.out = some p := by simp [Stream.offer, wStream, p6]; rw [← p7]; rfl
          obtain ⟨f1, f2⟩ := ih (fun x hx => hl x (List.mem_cons_of_mem _ hx)) hne' s' (by rw [p3]; decide)
          rw [hoff] at f1 f2
          have ho : ∀ t, offersOf (wStream c) (E.1 ++ (held ++ [q] ++ t)) = offersOf (wStream c) (E.1 ++ (held ++ [q])) ++ offersOf (wStream c) t := by
            intro t; simp [offersOf]
          refine ⟨fun rs h => ?_, fun h => ?_⟩
          · rw [hstep, if_neg hne2, f1 rs h, ho, List.append_assoc]
          · have := hstep (sendBeats c dl r s').1 []
            rw [List.append_nil, List.append_nil] at this
            rw [this, if_neg hne2, f2 h, ho]
    · rw [hE2, u1, andThen_blocked]
      refine ⟨fun rs ⟨_, h⟩ => (nomatch h), fun _ => ?_⟩
      simp only
      rw [offersWithGaps_short _ _ _ _ _ (by simp only [readiesOf, List.length_map]; exact e2), hoc]
      simp [readiesOf]

theorem sendWriteData_gaps (c : AxCfg) (dl : Nat) (sync : Bool) (l : List (Nat × Nat)) (hl : ∀ x ∈ l, x.1 < 2 ^ (8 * c.dataBytes) ∧ x.2 < 2 ^ c.dataBytes) (hne : l ≠ [])
    (s : Sim AxIn WOut) (hs : sync = true ∨ s.phase ≠ .ro) (h0 : s.out.valid = .zero) :
    let r := (when sync awaitEdge >>= fun _ => sendBeats c dl l) s
    (∀ rs, (∃ s', r.2 = .ok () s') → offersWithGaps dl none (dl + if sync then 1 else 0) (wReqs c l) (readiesOf (wStream c) r.1 ++ rs) =
        offersOf (wStream c) r.1 ++ List.replicate rs.length none) ∧
    ((∃ s', r.2 = .blocked s') → offersWithGaps dl none (dl + if sync then 1 else 0) (wReqs c l) (readiesOf (wStream c) r.1) = offersOf (wStream c) r.1) := by
  have hoff : (wStream c).offer s.out = none := by simp [Stream.offer, wStream, h0]
  cases sync with
  | false =>
    simp only [Coro.when, Bool.false_eq_true, if_false, pure_bind]
    have := sendBeats_gaps c dl l hl hne s (by simpa using hs)
    rw [hoff] at this
    exact this
  | true =>
    simp only [Coro.when, if_true]
    cases h : s.rest with
    | nil =>
      rw [bind_awaitEdge_nil _ _ h]
      exact ⟨fun rs ⟨_, h⟩ => (nomatch h), fun _ => by simp [readiesOf, offersOf, offersWithGaps]⟩
    | cons i r =>
      rw [bind_awaitEdge_cons _ _ i r h]
      have := sendBeats_gaps c dl l hl hne ⟨.edge, s.out, s.cur, i, r⟩ (by simp)
      rw [show (⟨.edge, s.out, s.cur, i, r⟩ : Sim AxIn WOut).out = s.out from rfl, hoff] at this
      obtain ⟨f1, f2⟩ := this
      refine ⟨fun rs h => ?_, fun h => ?_⟩
      · have := f1 rs h
        simp only [readiesOf, offersOf, List.map_cons, List.cons_append, hoff, offersWithGaps] at *
        rw [this]
      · have := f2 h
        simp only [readiesOf, offersOf, List.map_cons, List.cons_append, hoff, offersWithGaps] at *
        rw [this]

/-- the write data channel of a whole write -/
theorem axiWriteRun_gaps (c : AxCfg) (a : Nat) (data : List Nat) (size : Nat) (burst : AxiBurst) (be : List (Option Nat)) (al dl : Nat) (sync : Bool)
    (hf : AddrFits c a data.length size) (hsz : 0 < size) (beats : List (Nat × Nat)) (hb : axiWriteBeats c.dataBytes size a burst data be = .ok beats)
    (hne : beats ≠ []) (hl : ∀ x ∈ beats, x.1 < 2 ^ (8 * c.dataBytes) ∧ x.2 < 2 ^ c.dataBytes)
    (s : Sim AxIn (AddrOut × WOut)) (hs : sync = true ∨ s.phase ≠ .ro) (h0 : s.out.1.valid = .zero) (h0' : s.out.2.valid = .zero) :
    let t := wTrace (axiWriteRun c a data size burst be al dl sync s).1
    offersOf (wStream c) t = offersWithGaps dl none (dl + if sync then 1 else 0) (wReqs c beats) (readiesOf (wStream c) t) := by
  intro t
  have hA := sendWriteAddress_offers c a data.length size al burst sync hf hsz ⟨s.phase, s.out.1, s.prev, s.cur, s.rest⟩ hs h0
  have hG := sendWriteData_gaps c dl sync beats hl hne ⟨s.phase, s.out.2, s.prev, s.cur, s.rest⟩ hs h0'
  have hW := sendWriteData_stutter c dl sync beats hl hne ⟨s.phase, s.out.2, s.prev, s.cur, s.rest⟩ hs h0'
  have gA := sendWriteAddress_good c a data.length size al burst sync
  have gW := sendWriteData_good c a data burst size dl be sync
  rw [← sendWriteData_eq c a data burst size dl be sync beats hb] at hW hG
  obtain ⟨v, hv1, hv2, hv3⟩ := combine_right gA gW s
  obtain ⟨-, qb, qe⟩ := hA.request
  have hrr : axiWriteRun c a data size burst be al dl sync s =
      Res.andThen (combine (sendWriteAddress c a data.length burst size al sync) (sendWriteData c a data burst size dl be sync) s) (fun _ => bPhase) := by
    rw [axiWriteRun_eq, bind_run]
  have ht : t = wTrace (Res.andThen (combine (sendWriteAddress c a data.length burst size al sync) (sendWriteData c a data burst size dl be sync) s) (fun _ => bPhase)).1 := by
    rw [← hrr]
  clear_value t
  generalize hx : sendWriteAddress c a data.length burst size al sync = X at *
  generalize hy : sendWriteData c a data burst size dl be sync = Y at *
  have we : ∀ e s', (Y ⟨s.phase, s.out.2, s.prev, s.cur, s.rest⟩).2 ≠ .err e s' := by
    intro e s' h
    rcases hW with ⟨s2, h2, _⟩ | ⟨s2, h2, _⟩ <;> rw [h] at h2 <;> cases h2
  -- what follows the data task: nothing is offered
  have fin : ∀ z, t = (Y ⟨s.phase, s.out.2, s.prev, s.cur, s.rest⟩).1 ++ z → (∀ q ∈ z, q.1.valid = .zero) →
      (∀ s', (Y ⟨s.phase, s.out.2, s.prev, s.cur, s.rest⟩).2 = .blocked s' → z = []) →
      offersOf (wStream c) t = offersWithGaps dl none (dl + if sync then 1 else 0) (wReqs c beats) (readiesOf (wStream c) t) := by
    intro z hz hzv hzb
    have hzo : offersOf (wStream c) z = List.replicate (readiesOf (wStream c) z).length none := by
      unfold offersOf
      rw [List.eq_replicate_iff]
      refine ⟨by simp [readiesOf], ?_⟩
      intro b hb
      obtain ⟨q, hq, rfl⟩ := List.mem_map.1 hb
      simp [Stream.offer, wStream, hzv q hq]
    have hr : readiesOf (wStream c) t = readiesOf (wStream c) (Y ⟨s.phase, s.out.2, s.prev, s.cur, s.rest⟩).1 ++ readiesOf (wStream c) z := by rw [hz]; simp [readiesOf]
    have ho : offersOf (wStream c) t = offersOf (wStream c) (Y ⟨s.phase, s.out.2, s.prev, s.cur, s.rest⟩).1 ++ offersOf (wStream c) z := by rw [hz]; simp [offersOf]
    rw [hr, ho, hzo]
    cases hY : (Y ⟨s.phase, s.out.2, s.prev, s.cur, s.rest⟩).2 with
    | err e s' => exact absurd hY (we e s')
    | ok a s' => exact (hG.1 _ ⟨s', hY⟩).symm
    | blocked s' =>
      have hz0 := hzb s' hY
      subst hz0
      have := hG.2 ⟨s', hY⟩
      simp only [readiesOf, List.map_nil, List.append_nil, List.length_nil, List.replicate_zero] at this ⊢
      exact this.symm
  have hvz : ∀ q ∈ v, q.1.valid = .zero := by
    intro q hq
    rcases hW with ⟨s2, h2, _, h4, _⟩ | ⟨s2, h2, _⟩
    · rw [hv2 q hq, h2]; exact h4
    · rw [hv3 s2 h2] at hq; cases hq
  cases hb2 : ((X ⟨s.phase, s.out.1, s.prev, s.cur, s.rest⟩).2.isOk && (Y ⟨s.phase, s.out.2, s.prev, s.cur, s.rest⟩).2.isOk) with
  | false =>
    obtain ⟨s', hs'⟩ := combine_blocked (x := X) (y := Y) s qe we hb2
    have hxy : combine X Y s = ((combine X Y s).1, .blocked s') := by rw [← hs']
    rw [hxy, andThen_blocked] at ht
    exact fin v (ht.trans hv1) hvz hv3
  | true =>
    cases heX : (X ⟨s.phase, s.out.1, s.prev, s.cur, s.rest⟩).2 with
    | err e s' => exact absurd heX (qe e s')
    | blocked s' => rw [heX] at hb2; simp [End.isOk] at hb2
    | ok x1 s1 =>
    rcases hW with ⟨s2, heY, w2, w3, w4, qW, hqW, hxW⟩ | ⟨s2, heY, _⟩
    · have hok := combine_ok s s1 s2 heX heY
      have hxy : combine X Y s = ((combine X Y s).1, .ok () (joinSim s1 s2)) := by rw [← hok]
      have p1 := qb _ _ heX
      have hph : (joinSim s1 s2).phase ≠ .ro := by
        unfold joinSim
        split
        · rw [show (_ : Sim AxIn (AddrOut × WOut)).phase = s1.phase from rfl, p1.1]; decide
        · exact w2
      have hout : (joinSim s1 s2).out = (s1.out, s2.out) := by unfold joinSim; split <;> rfl
      obtain ⟨b1, b2, b3⟩ := bPhase_run (joinSim s1 s2) hph
      rw [hxy, andThen_ok] at ht
      refine fin (v ++ wTrace (bPhase (joinSim s1 s2)).1) (by rw [ht, ← List.append_assoc, ← hv1]; simp [wTrace]) ?_ (fun s' h => by rw [heY] at h; cases h)
      intro q hq
      rcases List.mem_append.1 hq with hq | hq
      · exact hvz q hq
      · obtain ⟨q', hq', rfl⟩ := List.mem_map.1 hq
        simp [b1 q' hq', hout, w3]
    · rw [heX, heY] at hb2; simp [End.isOk] at hb2

/-! ### What follows from it -/

theorem takenAt_taken {I O : Type} (V : Stream I O P) (t : List (O × I)) : takenAt (offersOf V t) (readiesOf V t) = V.taken t := by
  induction t with
  | nil => rfl
  | cons q t ih =>
    simp only [takenAt, offersOf, readiesOf, List.map_cons, List.zip_cons_cons, List.filterMap_cons, Stream.taken, List.filter_cons, Stream.xfer, Stream.offer] at ih ⊢
    rw [ih]
    by_cases h1 : V.ready q.2 = true <;> by_cases h2 : V.valid q.1 = true <;> simp [h1, h2]

theorem takenAt_start (gap : Nat) (l : List P) : ∀ (k : Nat) (rs : List Bool),
    takenAt (offersWithGaps gap none k l rs) rs = takenAt (offersWithGaps gap none 0 l (rs.drop k)) (rs.drop k) := by
  intro k
  induction k with
  | zero => intro rs; rfl
  | succ k ih =>
    intro rs
    cases rs with
    | nil => simp [offersWithGaps, takenAt]
    | cons b rs =>
      rw [List.drop_succ_cons, ← ih rs, offersWithGaps]
      simp [takenAt]

theorem Stutters.length_le {n : Nat} {l m : List P} (h : Stutters n l m) : l.length ≤ m.length := by
  induction h with
  | nil => exact Nat.le_refl _
  | last p => exact Nat.le_refl _
  | cons p k l m _ _ _ ih => simp only [List.length_cons, List.length_append, List.length_replicate]; omega

/-- With calm gaps each payload is taken once. -/
theorem takenAt_calm (gap : Nat) : ∀ (rs : List Bool) (shown : Option P) (k : Nat) (l : List P), CalmGaps gap k l.length rs →
    takenAt (offersWithGaps gap shown k l rs) rs <+: l := by
  intro rs
  induction rs with
  | nil => intro shown k l _; exact List.nil_prefix
  | cons b rs ih =>
    intro shown k l h
    cases k with
    | succ k =>
      obtain ⟨rfl, h2⟩ : b = false ∧ CalmGaps gap k l.length rs := by simpa only [CalmGaps] using h
      have := ih shown k l h2
      simpa [takenAt, offersWithGaps] using this
    | zero =>
      cases l with
      | nil =>
        have hn : takenAt (offersWithGaps gap none 0 ([] : List P) (b :: rs)) (b :: rs) = [] := by
          rw [offersWithGaps_none]
          unfold takenAt
          rw [List.filterMap_eq_nil_iff]
          intro q hq
          have := (List.of_mem_zip hq).1
          rw [List.mem_replicate] at this
          rw [this.2]
          simp
        have : offersWithGaps gap shown 0 ([] : List P) (b :: rs) = offersWithGaps gap none 0 [] (b :: rs) := by simp [offersWithGaps]
        rw [this, hn]
        exact List.nil_prefix
      | cons p l =>
        rw [offersWithGaps]
        cases b with
        | false =>
          have := ih (some p) 0 (p :: l) (by simpa [CalmGaps] using h)
          simpa [takenAt] using this
        | true =>
          simp only [Bool.true_eq_false, if_false]
          cases l with
          | nil =>
            simp only [if_true]
            have := ih none 0 [] (by cases rs <;> trivial)
            have h0 := List.prefix_nil.mp this
            simp only [takenAt] at h0
            simp [takenAt, h0]
          | cons p' l =>
            have h' : CalmGaps gap gap (p' :: l).length rs := by simpa [CalmGaps] using h
            have := ih (some p) gap (p' :: l) h'
            simp only [List.cons_ne_nil, if_false]
            simpa [takenAt] using this

end CocotbBus
