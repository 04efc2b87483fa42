import Verif.Model.PktsReconf
import Verif.Spec.PktsReconf
import Verif.Proof.AvalonPktsMon

/-!
The reconfigured packet monitor: idle and in-reset edges make no difference, and packets are put together beat by beat.
-/

namespace CocotbBus
open Spec Coro

/-- the monitor on beats only -/
def pkBeatsDyn : List (PkCfg × PkOut) → PkState → List PkReport × Except PyErr PkState
  | [], st => ([], .ok st)
  | (c, o) :: r, st =>
    match pkBeatStep c { st with invalidCount := 0 } o with
    | .error e => ([], .error e)
    | .ok (st, rep) =>
      let (l, e) := pkBeatsDyn r st
      (rep.toList ++ l, e)

theorem pkBeatsDyn_append (b a : List (PkCfg × PkOut)) : ∀ (st : PkState) (l : List PkReport) (st' : PkState),
    pkBeatsDyn a st = (l, .ok st') → pkBeatsDyn (a ++ b) st = (l ++ (pkBeatsDyn b st').1, (pkBeatsDyn b st').2) := by
  induction a with
  | nil => intro st l st' h; cases h; rfl
  | cons x a ih =>
    intro st l st' h
    obtain ⟨c, o⟩ := x
    simp only [pkBeatsDyn] at h
    simp only [List.cons_append, pkBeatsDyn]
    cases hs : pkBeatStep c { st with invalidCount := 0 } o with
    | error e => rw [hs] at h; cases h
    | ok x =>
      obtain ⟨s1, rep⟩ := x
      rw [hs] at h
      simp only [Prod.mk.injEq] at h
      simp only
      rw [ih s1 (pkBeatsDyn a s1).1 st' (by rw [← h.2])]
      simp [← h.1]

theorem pkBeatsDyn_prefix (b a : List (PkCfg × PkOut)) : ∀ (st : PkState) (l : List PkReport) (st' : PkState),
    pkBeatsDyn (a ++ b) st = (l, .ok st') → ∃ l1 s1, pkBeatsDyn a st = (l1, .ok s1) := by
  induction a with
  | nil => intro st l st' _; exact ⟨[], st, rfl⟩
  | cons x a ih =>
    intro st l st' h
    obtain ⟨c, o⟩ := x
    simp only [List.cons_append, pkBeatsDyn] at h ⊢
    cases hs : pkBeatStep c { st with invalidCount := 0 } o with
    | error e => rw [hs] at h; cases h
    | ok x =>
      obtain ⟨s1, rep⟩ := x
      rw [hs] at h
      simp only [Prod.mk.injEq] at h
      obtain ⟨l1, s2, h2⟩ := ih s1 (pkBeatsDyn (a ++ b) s1).1 st' (by rw [← h.2])
      exact ⟨rep.toList ++ l1, s2, by simp [h2]⟩

theorem pkBeatsDyn_count (a : List (PkCfg × PkOut)) : ∀ (st : PkState) (l : List PkReport) (st' : PkState),
    pkBeatsDyn a st = (l, .ok st') → l.length = ended (a.map Prod.snd) := by
  induction a with
  | nil => intro st l st' h; cases h; rfl
  | cons x a ih =>
    intro st l st' h
    obtain ⟨c, o⟩ := x
    simp only [pkBeatsDyn] at h
    cases hs : pkBeatStep c { st with invalidCount := 0 } o with
    | error e => rw [hs] at h; cases h
    | ok x =>
      obtain ⟨s1, rep⟩ := x
      rw [hs] at h
      simp only [Prod.mk.injEq] at h
      have h1 := ih s1 (pkBeatsDyn a s1).1 st' (by rw [← h.2])
      obtain ⟨-, -, ch, -, h3⟩ := beatStep_ok _ _ _ _ _ hs
      rw [← h.1, List.length_append, h1]
      rcases h3 with ⟨h3, rfl, -⟩ | ⟨h3, b, bd, -, -, rfl⟩
      · simp [ended, h3]
      · simp [ended, h3]; omega

theorem pkMonitorDyn_snoc (a : List (PkCfg × (PkOut × PkIn))) (k : PkCfg) (r : PkOut × PkIn) : ∀ (st : PkState) (l : List PkReport) (st' : PkState),
    pkMonitorDyn a st = (l, .ok st') → pkMonitorDyn (a ++ [(k, r)]) st = match pkStep k st' r.1 r.2 with
      | .error e => (l, .error e)
      | .ok (s2, rep) => (l ++ rep.toList, .ok s2) := by
  induction a with
  | nil =>
    intro st l st' h
    cases h
    simp only [List.nil_append, pkMonitorDyn]
    cases pkStep k st r.1 r.2 with
    | error e => rfl
    | ok x => simp
  | cons x a ih =>
    intro st l st' h
    obtain ⟨c, o, i⟩ := x
    simp only [List.cons_append, pkMonitorDyn] at h ⊢
    cases hs : pkStep c st o i with
    | error e => rw [hs] at h; cases h
    | ok x =>
      obtain ⟨s1, rep⟩ := x
      rw [hs] at h
      simp only [Prod.mk.injEq] at h
      simp only
      rw [ih s1 (pkMonitorDyn a s1).1 st' (by rw [← h.2])]
      cases pkStep k st' r.1 r.2 with
      | error e => simp [← h.1]
      | ok x => simp [← h.1]

theorem eventAt_same {c k : PkCfg} (h : SameMonitor c k) (r : PkOut × PkIn) : eventAt k r = eventAt c r := by
  have : (pkStream k).xfer r = (pkStream c).xfer r := by
    rw [← pkValid_eq k r.1 r.2, ← pkValid_eq c r.1 r.2]
    simp [pkValid, h.hasReady]
  unfold eventAt
  rw [this]

theorem beatsWith_snoc (a : List (PkCfg × (PkOut × PkIn))) (k : PkCfg) (r : PkOut × PkIn) :
    beatsWith (a ++ [(k, r)]) = beatsWith a ++ ((eventAt k r).beat?.map (fun o => (k, o))).toList := by
  rw [beatsWith, List.filterMap_append]
  cases h : (eventAt k r).beat? <;> simp [beatsWith, h]

theorem beatsWith_snd (c : PkCfg) (t : List (PkCfg × (PkOut × PkIn))) (h : ∀ r ∈ t, SameMonitor c r.1) :
    (beatsWith t).map Prod.snd = beatsIn c (t.map Prod.snd) := by
  induction t using List.reverseRecOn with
  | nil => rfl
  | append_singleton a r ih =>
    obtain ⟨k, r⟩ := r
    rw [beatsWith_snoc, List.map_append, ih (fun q hq => h q (by simp [hq])), List.map_append, List.map_cons, List.map_nil, beatsIn_snoc,
      eventAt_same (h (k, r) (by simp))]
    cases (eventAt c r).beat? <;> rfl

/-- idle and in-reset edges make no difference, as long as there is no timeout -/
theorem pkMonitorDyn_of_beats (c : PkCfg) (t : List (PkCfg × (PkOut × PkIn))) (hc : ∀ r ∈ t, SameMonitor c r.1)
    (hr : ∀ r ∈ t, ResetReadable r.2.2) (hnt : NoTimeoutWith c t) (l : List PkReport) (st : PkState)
    (h : pkBeatsDyn (beatsWith t) {} = (l, .ok st)) :
    (st.inPkt = true ↔ openBeats (beatsIn c (t.map Prod.snd)) ≠ []) ∧
    ∃ k, pkMonitorDyn t {} = (l, .ok { st with invalidCount := k }) ∧ (st.inPkt = true → k = idleSince c 0 (t.map Prod.snd)) := by
  induction t using List.reverseRecOn generalizing l st with
  | nil => cases h; exact ⟨by simp [beatsIn, openBeats], 0, rfl, by simp⟩
  | append_singleton a r ih =>
    obtain ⟨cf, r⟩ := r
    have hcf : SameMonitor c cf := hc (cf, r) (by simp)
    have hnt' : NoTimeoutWith c a := fun x k q y hxy => hnt x k q (y ++ [(cf, r)]) (by rw [hxy]; simp)
    have hrr : ResetReadable r.2 := hr (cf, r) (by simp)
    rw [beatsWith_snoc] at h
    obtain ⟨l1, s1, h1⟩ := pkBeatsDyn_prefix _ _ _ _ _ h
    obtain ⟨hin, k, hk, hcount⟩ := ih (fun q hq => hc q (by simp [hq])) (fun q hq => hr q (by simp [hq])) hnt' l1 s1 h1
    rw [pkMonitorDyn_snoc a cf r _ _ _ hk]
    rw [pkBeatsDyn_append _ _ _ _ _ h1] at h
    simp only [List.map_append, List.map_cons, List.map_nil, beatsIn_snoc, idleSince_snoc]
    have hnt2 := hnt a cf r [] rfl
    simp only [beatsIn_snoc, idleSince_snoc] at hnt2
    have he0 := eventAt_same hcf r
    rw [he0] at h
    cases he : eventAt c r with
    | reset =>
      rw [he] at h
      simp only [PkEvent.beat?, Option.map, Option.toList, pkBeatsDyn, List.append_nil] at h
      cases h
      rw [pkStep_reset cf _ r (he0.trans he)]
      simp only [PkEvent.beat?, Option.toList, List.append_nil]
      exact ⟨hin, k, rfl, hcount⟩
    | idle =>
      rw [he] at h hnt2
      simp only [PkEvent.beat?, Option.map, Option.toList, pkBeatsDyn, List.append_nil] at h hnt2 ⊢
      cases h
      refine ⟨hin, ?_⟩
      rw [pkStep_idle cf _ r hrr (he0.trans he)]
      simp only
      cases hip : st.inPkt with
      | false => exact ⟨k, by simp, by simp⟩
      | true =>
        have hcnt := hcount hip
        have hb := hnt2
        simp only [if_true]
        rw [if_neg]
        · exact ⟨k + 1, by simp, fun _ => by rw [hcnt]⟩
        · rintro ⟨ht1, ht2⟩
          have := hnt2 ht1 (hin.1 hip)
          omega
    | beat o =>
      rw [he] at h
      simp only [PkEvent.beat?, Option.map, Option.toList, pkBeatsDyn] at h
      rw [pkStep_beat cf _ r hrr o (he0.trans he)]
      cases hs : pkBeatStep cf { s1 with invalidCount := 0 } o with
      | error e => rw [hs] at h; cases h
      | ok x =>
        obtain ⟨s2, rep⟩ := x
        rw [hs] at h
        simp only [Prod.mk.injEq, Except.ok.injEq] at h
        obtain ⟨ha, rfl⟩ := h
        obtain ⟨-, -, ch, -, h3⟩ := beatStep_ok _ _ _ _ _ hs
        simp only [PkEvent.beat?, Option.toList, openBeats_snoc]
        have hres : pkMonitorDyn a {} = (l1, .ok { s1 with invalidCount := k }) := hk
        refine ⟨?_, s2.invalidCount, ?_, ?_⟩
        · rcases h3 with ⟨h3, -, b, -, rfl⟩ | ⟨h3, b, bd, -, rfl, -⟩ <;> simp [h3]
        · rw [← ha]; cases rep <;> simp
        · intro hip
          rcases h3 with ⟨h3, -, b, -, rfl⟩ | ⟨h3, b, bd, -, rfl, -⟩
          · rfl
          · simp at hip

theorem pkBeatsDyn_rest (c : PkCfg) (n : Nat) (ch : Option Nat) (lastB : Bytes) (last : PkCfg × PkOut) (hl : LastBeat last.1 n lastB ch last.2)
    (hlc : SameMonitor c last.1) (hlr : ∀ x, ch = some x → x ≤ last.1.maxChannel) (hln : last.1.channelW = none → ch = none)
    (bodies : List (Bytes × PkCfg × PkOut)) : ∀ (st : PkState), st.inPkt = true → st.channel = ch →
    (∀ p ∈ bodies, BodyBeat p.2.1 n p.1 ch p.2.2 ∧ (∀ x, ch = some x → x ≤ p.2.1.maxChannel) ∧ (p.2.1.channelW = none → ch = none)) →
    (∀ o ∈ bodies.map Prod.snd ++ [last], o.2.sop ≠ .one) →
    ∃ eb, pkBeatsDyn (bodies.map Prod.snd ++ [last]) st =
      ([reportOf c (st.pkt ++ (bodies.map Prod.fst).flatten ++ lastB) ch], .ok { emptyBound := eb }) := by
  have hrep : ∀ p, reportOf last.1 p ch = reportOf c p ch := by intro p; simp [reportOf, hlc.reportChannel]
  induction bodies with
  | nil =>
    intro st h1 h2 _ h4
    obtain ⟨eb, h5⟩ := beatStep_last last.1 n lastB ch last.2 { st with invalidCount := 0 } hl
      (.inr ⟨h1, h4 last (by simp), h2⟩) hlr hln
    exact ⟨eb, by simp [pkBeatsDyn, h5, hrep]⟩
  | cons p r ih =>
    intro st h1 h2 h3 h4
    obtain ⟨hb, hbr, hbn⟩ := h3 p (by simp)
    have h5 := beatStep_body p.2.1 n p.1 ch p.2.2 { st with invalidCount := 0 } hb
      (.inr ⟨h1, h4 p.2 (by simp), h2⟩) hbr hbn
    obtain ⟨eb, h6⟩ := ih { pkt := st.pkt ++ p.1, inPkt := true, invalidCount := 0, channel := ch, emptyBound := st.emptyBound } rfl rfl
      (fun q hq => h3 q (by simp [hq])) (fun o ho => h4 o (by simp only [List.map_cons, List.cons_append, List.mem_cons]; exact .inr ho))
    refine ⟨eb, ?_⟩
    simp only [List.map_cons, List.cons_append, pkBeatsDyn, h5, h6]
    simp

/-- the monitor on the beats of one packet -/
theorem pkBeatsDyn_packet (c : PkCfg) (n : Nat) (pkt : Bytes) (ch : Option Nat) (beats : List (PkCfg × PkOut)) (h : PacketWith n pkt ch beats)
    (hc : ∀ p ∈ beats, SameMonitor c p.1) (eb0 : Bool) :
    ∃ eb, pkBeatsDyn beats { emptyBound := eb0 } = ([reportOf c pkt ch], .ok { emptyBound := eb }) := by
  obtain ⟨bodies, lastB, last, rfl, rfl, hbod, hlast⟩ := h.shape
  have hml : last ∈ bodies.map Prod.snd ++ [last] := by simp
  cases bodies with
  | nil =>
    have hs := (h.sop 0 last (by simp)).2 rfl
    obtain ⟨eb, h5⟩ := beatStep_last last.1 n lastB ch last.2 { emptyBound := eb0 } hlast (.inl ⟨rfl, rfl, hs⟩) (h.range _ hml) (h.none _ hml)
    have hrep : ∀ p, reportOf last.1 p ch = reportOf c p ch := by intro p; simp [reportOf, (hc _ hml).reportChannel]
    exact ⟨eb, by simp [pkBeatsDyn, h5, hrep]⟩
  | cons p r =>
    have hs := (h.sop 0 p.2 (by simp)).2 rfl
    have hmp : p.2 ∈ (p :: r).map Prod.snd ++ [last] := by simp
    have h5 := beatStep_body p.2.1 n p.1 ch p.2.2 { emptyBound := eb0 } (hbod p (by simp)) (.inl ⟨rfl, rfl, hs⟩) (h.range _ hmp) (h.none _ hmp)
    obtain ⟨eb, h6⟩ := pkBeatsDyn_rest c n ch lastB last hlast (hc _ hml) (h.range _ hml) (h.none _ hml) r
      { pkt := p.1, inPkt := true, invalidCount := 0, channel := ch, emptyBound := eb0 } rfl rfl
      (fun q hq => by
        have hmq : q.2 ∈ (p :: r).map Prod.snd ++ [last] := List.mem_append_left _ (List.mem_map_of_mem (by simp [hq]))
        exact ⟨hbod q (by simp [hq]), h.range _ hmq, h.none _ hmq⟩) (by
        intro o ho hso
        obtain ⟨j, hj⟩ := List.mem_iff_getElem?.1 ho
        have := (h.sop (j + 1) o (by simpa using hj)).1 hso
        omega)
    refine ⟨eb, ?_⟩
    simp only [List.map_cons, List.cons_append, pkBeatsDyn, h5, List.nil_append, h6]
    simp

/-- the monitor on the beats of a sequence of packets -/
theorem pkBeatsDyn_packets (c : PkCfg) (n : Nat) (ps : List (Bytes × Option Nat × List (PkCfg × PkOut)))
    (h : ∀ p ∈ ps, PacketWith n p.1 p.2.1 p.2.2) (hc : ∀ p ∈ ps, ∀ q ∈ p.2.2, SameMonitor c q.1) : ∀ eb0 : Bool,
    ∃ eb, pkBeatsDyn (ps.flatMap (fun p => p.2.2)) { emptyBound := eb0 } =
      (ps.map (fun p => reportOf c p.1 p.2.1), .ok { emptyBound := eb }) := by
  induction ps with
  | nil => intro eb0; exact ⟨eb0, rfl⟩
  | cons p r ih =>
    intro eb0
    obtain ⟨eb1, h1⟩ := pkBeatsDyn_packet c n _ _ _ (h p (by simp)) (hc p (by simp)) eb0
    obtain ⟨eb, h2⟩ := ih (fun q hq => h q (by simp [hq])) (fun q hq => hc q (by simp [hq])) eb1
    refine ⟨eb, ?_⟩
    rw [List.flatMap_cons, pkBeatsDyn_append _ _ _ _ _ h1, h2]
    rfl

/-- the monitor on a trace that stops anywhere in a sequence of packets -/
theorem pkMonitorDyn_packets (c : PkCfg) (n : Nat) (ps : List (Bytes × Option Nat × List (PkCfg × PkOut)))
    (h : ∀ p ∈ ps, PacketWith n p.1 p.2.1 p.2.2) (hcp : ∀ p ∈ ps, ∀ q ∈ p.2.2, SameMonitor c q.1)
    (t : List (PkCfg × (PkOut × PkIn))) (hc : ∀ r ∈ t, SameMonitor c r.1)
    (hr : ∀ r ∈ t, ResetReadable r.2.2) (hnt : NoTimeoutWith c t) (hp : beatsWith t <+: ps.flatMap (fun p => p.2.2)) :
    ∃ st, pkMonitorDyn t {} = ((ps.map (fun p => reportOf c p.1 p.2.1)).take (ended (beatsIn c (t.map Prod.snd))), .ok st) := by
  obtain ⟨eb, h1⟩ := pkBeatsDyn_packets c n ps h hcp false
  obtain ⟨w, hw⟩ := hp
  rw [← hw] at h1
  obtain ⟨l1, s1, h2⟩ := pkBeatsDyn_prefix _ _ _ _ _ h1
  obtain ⟨-, k, h3, -⟩ := pkMonitorDyn_of_beats c t hc hr hnt l1 s1 h2
  refine ⟨{ s1 with invalidCount := k }, h3.trans ?_⟩
  rw [pkBeatsDyn_append _ _ _ _ _ h2] at h1
  have hl := pkBeatsDyn_count _ _ _ _ h2
  rw [beatsWith_snd c t hc] at hl
  congr 1
  simp only [Prod.mk.injEq] at h1
  rw [← h1.1, ← hl, List.take_left]

end CocotbBus
