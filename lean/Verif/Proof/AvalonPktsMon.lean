import Verif.Proof.AvalonPkts
import Mathlib.Tactic.ByContra
import Mathlib.Data.List.Induction

namespace CocotbBus
open Spec

/-! ### The monitor on a beat -/

/-- what the monitor does with a beat -/
def pkBeatStep (c : PkCfg) (st : PkState) (o : PkOut) : Except PyErr (PkState × Option PkReport) :=
  if o.sop = .one ∧ st.pkt ≠ [] then .error (.avalonProtocol "duplicate start-of-packet")
  else
    let st := if o.sop = .one then { st with pkt := [], inPkt := true } else st
    if st.inPkt = false then .error (.avalonProtocol "data outside of packet")
    else if o.eop ≠ .one then
      match pkBody c o with
      | .error e => .error e
      | .ok b =>
        match pkCheckChannel c o st.channel with
        | .error e => .error e
        | .ok ch => .ok ({ st with pkt := st.pkt ++ b, channel := ch }, none)
    else
      match pkLast c o st.emptyBound with
      | .error e => .error e
      | .ok (b, bound) =>
        match pkCheckChannel c o st.channel with
        | .error e => .error e
        | .ok ch =>
          .ok ({ st with pkt := [], inPkt := false, channel := none, emptyBound := bound },
            some ⟨st.pkt ++ b, if c.reportChannel then some ch else none⟩)

theorem pkValid_eq (c : PkCfg) (o : PkOut) (i : PkIn) : pkValid c o i = (pkStream c).xfer (o, i) := by
  unfold pkValid Stream.xfer pkStream
  cases c.hasReady <;> simp

theorem pkStep_reset (c : PkCfg) (st : PkState) (r : PkOut × PkIn) (h : eventAt c r = .reset) :
    pkStep c st r.1 r.2 = .ok (st, none) := by
  unfold eventAt at h
  split at h
  · rename_i h1; unfold pkStep; rw [h1]
  · split at h <;> cases h

theorem pkStep_beat (c : PkCfg) (st : PkState) (r : PkOut × PkIn) (hr : ResetReadable r.2) (o : PkOut) (h : eventAt c r = .beat o) :
    pkStep c st r.1 r.2 = pkBeatStep c { st with invalidCount := 0 } o := by
  unfold eventAt at h
  split at h
  · cases h
  · rename_i h1
    split at h
    · rename_i h2
      cases h
      obtain ⟨b, hb⟩ := hr
      have : inReset r.2.resetN r.2.reset = .ok false := by
        cases b with
        | false => exact hb
        | true => exact absurd hb h1
      unfold pkStep
      rw [this, pkValid_eq]
      simp only [h2, if_true]
      rfl
    · cases h

theorem pkStep_idle (c : PkCfg) (st : PkState) (r : PkOut × PkIn) (hr : ResetReadable r.2) (h : eventAt c r = .idle) :
    pkStep c st r.1 r.2 = if st.inPkt then
        if c.invalidTimeout ≠ 0 ∧ st.invalidCount + 1 ≥ c.invalidTimeout then .error (.avalonProtocol "timeout")
        else .ok ({ st with invalidCount := st.invalidCount + 1 }, none)
      else .ok (st, none) := by
  unfold eventAt at h
  split at h
  · cases h
  · rename_i h1
    split at h
    · cases h
    · rename_i h2
      obtain ⟨b, hb⟩ := hr
      have : inReset r.2.resetN r.2.reset = .ok false := by
        cases b with
        | false => exact hb
        | true => exact absurd hb h1
      unfold pkStep
      rw [this, pkValid_eq]
      simp [h2]

theorem readable_of_ok (c : PkCfg) (st : PkState) (r : PkOut × PkIn) (x : PkState × Option PkReport)
    (h : pkStep c st r.1 r.2 = .ok x) : ResetReadable r.2 := by
  unfold pkStep at h
  cases hi : inReset r.2.resetN r.2.reset with
  | error e => rw [hi] at h; cases h
  | ok b => exact ⟨b, hi⟩

theorem pkMonitor_append (c : PkCfg) (b a : List (PkOut × PkIn)) : ∀ (st : PkState) (l : List PkReport) (st' : PkState),
    pkMonitor c a st = (l, .ok st') → pkMonitor c (a ++ b) st = (l ++ (pkMonitor c b st').1, (pkMonitor c b st').2) := by
  induction a with
  | nil => intro st l st' h; cases h; rfl
  | cons r a ih =>
    obtain ⟨o, i⟩ := r
    intro st l st' h
    simp only [List.cons_append, pkMonitor] at h ⊢
    cases hs : pkStep c st o i with
    | error e => rw [hs] at h; cases h
    | ok x =>
      obtain ⟨s1, rep⟩ := x
      rw [hs] at h
      simp only [Prod.mk.injEq] at h ⊢
      obtain ⟨h1, h2⟩ := h
      rw [ih s1 (pkMonitor c a s1).1 st' (by rw [← h2])]
      simp [← h1, List.append_assoc]

/-- an error-free run up to here, and one more record -/
theorem pkMonitor_snoc (c : PkCfg) (a : List (PkOut × PkIn)) (r : PkOut × PkIn) (st st' : PkState) (l : List PkReport)
    (h : pkMonitor c a st = (l, .ok st')) :
    pkMonitor c (a ++ [r]) st = match pkStep c st' r.1 r.2 with
      | .error e => (l, .error e)
      | .ok (s2, rep) => (l ++ rep.toList, .ok s2) := by
  rw [pkMonitor_append c [r] a st l st' h]
  obtain ⟨o, i⟩ := r
  simp only [pkMonitor]
  cases pkStep c st' o i with
  | error e => simp
  | ok x => simp

/-- if a run is error-free so is every shorter one -/
theorem pkMonitor_prefix (c : PkCfg) (a b : List (PkOut × PkIn)) : ∀ (st : PkState) (l : List PkReport) (st' : PkState),
    pkMonitor c (a ++ b) st = (l, .ok st') → ∃ l1 s1, pkMonitor c a st = (l1, .ok s1) := by
  induction a with
  | nil => intro st _ _ _; exact ⟨[], st, rfl⟩
  | cons r a ih =>
    obtain ⟨o, i⟩ := r
    intro st l st' h
    simp only [List.cons_append, pkMonitor] at h ⊢
    cases hs : pkStep c st o i with
    | error e => rw [hs] at h; cases h
    | ok x =>
      obtain ⟨s1, rep⟩ := x
      rw [hs] at h
      simp only [Prod.mk.injEq] at h
      obtain ⟨l1, s2, h2⟩ := ih s1 (pkMonitor c (a ++ b) s1).1 st' (by rw [← h.2])
      exact ⟨rep.toList ++ l1, s2, by simp [h2]⟩

theorem pkMonitor_error_append (c : PkCfg) (b a : List (PkOut × PkIn)) : ∀ (st : PkState) (l : List PkReport) (e : PyErr),
    pkMonitor c a st = (l, .error e) → pkMonitor c (a ++ b) st = (l, .error e) := by
  induction a with
  | nil => intro st l e h; cases h
  | cons r a ih =>
    obtain ⟨o, i⟩ := r
    intro st l e h
    simp only [List.cons_append, pkMonitor] at h ⊢
    cases hs : pkStep c st o i with
    | error e => rw [hs] at h; exact h
    | ok x =>
      obtain ⟨s1, rep⟩ := x
      rw [hs] at h
      simp only [Prod.mk.injEq] at h ⊢
      rw [ih s1 (pkMonitor c a s1).1 e (by rw [← h.2])]
      simp [← h.1]

/-! ### Open beats, idle count -/

theorem openBeats_snoc (a : List PkOut) (o : PkOut) :
    openBeats (a ++ [o]) = if o.eop = .one then [] else openBeats a ++ [o] := by
  induction a with
  | nil => simp only [List.nil_append, openBeats]; by_cases h : o.eop = .one <;> simp [h]
  | cons x a ih =>
    rw [List.cons_append, openBeats, openBeats, ih]
    by_cases h : o.eop = .one
    · simp [h]
    · by_cases h2 : (a.any fun x => x.eop == .one) = true
      · simp [h, h2]
      · simp [h, h2]
        try split <;> simp

theorem beatsIn_snoc (c : PkCfg) (a : List (PkOut × PkIn)) (r : PkOut × PkIn) :
    beatsIn c (a ++ [r]) = beatsIn c a ++ (eventAt c r).beat?.toList := by
  rw [beatsIn, List.filterMap_append]
  cases h : (eventAt c r).beat? <;> simp [beatsIn, h]

theorem idleSince_snoc (c : PkCfg) (a : List (PkOut × PkIn)) (r : PkOut × PkIn) : ∀ k,
    idleSince c k (a ++ [r]) = match eventAt c r with
      | .reset => idleSince c k a
      | .idle => idleSince c k a + 1
      | .beat _ => 0 := by
  induction a with
  | nil => intro k; simp only [List.nil_append, idleSince]; cases eventAt c r <;> rfl
  | cons x a ih =>
    intro k
    simp only [List.cons_append, idleSince]
    cases eventAt c x <;> simp only [ih]

/-- what the monitor's variables mean, after an error-free run on `a` -/
structure MonInv (c : PkCfg) (a : List (PkOut × PkIn)) (st : PkState) : Prop where
  inPkt : st.inPkt = true ↔ openBeats (beatsIn c a) ≠ []
  pkt : st.pkt = [] ↔ openBeats (beatsIn c a) = []
  count : openBeats (beatsIn c a) ≠ [] → st.invalidCount = idleSince c 0 a
  bound : c.invalidTimeout ≠ 0 → openBeats (beatsIn c a) ≠ [] → idleSince c 0 a < c.invalidTimeout
  chNone : openBeats (beatsIn c a) = [] ∨ c.channelW = none → st.channel = none
  chSome : ∀ w, c.channelW = some w → ∀ f ∈ openBeats (beatsIn c a), ∃ x, toUnsigned f.channel = .ok x ∧ st.channel = some x
  emptyBound : st.emptyBound = true ↔ emptySeen c (beatsIn c a)

theorem body_ne (c : PkCfg) (o : PkOut) (b : Bytes) (hd : o.data ≠ []) (h : pkBody c o = .ok b) : b ≠ [] := by
  unfold pkBody at h
  by_cases h1 : o.data.length = 1
  · obtain ⟨y, hx⟩ := List.length_eq_one_iff.1 h1
    rw [hx] at h
    cases h
  · rw [pinValue_array _ h1] at h
    unfold convertBinaryToBytes at h
    simp only at h
    split at h
    · cases h
    · cases h
      have hl : 0 < o.data.length := List.length_pos_iff.2 hd
      intro he
      have := congrArg List.length he
      split at this <;> simp at this <;> omega

theorem checkChannel_ok (c : PkCfg) (o : PkOut) (ch0 ch : Option Nat) (h : pkCheckChannel c o ch0 = .ok ch) :
    (c.channelW = none → ch = ch0) ∧ (∀ w, c.channelW = some w → ∃ x, toUnsigned o.channel = .ok x ∧ ch = some x ∧
      (ch0 = none → x ≤ c.maxChannel) ∧ (∀ y, ch0 = some y → x = y)) := by
  unfold pkCheckChannel at h
  cases hw : c.channelW with
  | none => rw [hw] at h; cases h; exact ⟨fun _ => rfl, fun w hw => by cases hw⟩
  | some w =>
    refine ⟨fun hh => (by cases hh), fun _ _ => ?_⟩
    rw [hw] at h
    simp only at h
    split at h
    · cases h
    · rename_i n hn
      split at h
      · split at h
        · cases h
        · cases h; exact ⟨n, hn, rfl, fun _ => by omega, fun y hy => by cases hy⟩
      · split at h
        · cases h
        · rename_i ch1 hne
          cases h
          have : n = ch1 := by simpa using hne
          exact ⟨n, hn, by rw [this], fun hh => by (cases hh), fun y hy => by cases hy; exact this⟩

theorem pkLast_bound (c : PkCfg) (o : PkOut) (b0 b1 : Bool) (b : Bytes) (h : pkLast c o b0 = .ok (b, b1)) :
    b1 = true ↔ b0 = true ∨ (c.useEmpty = true ∧ ∃ k, toUnsigned o.empty = .ok (k + 1)) := by
  unfold pkLast at h
  cases hu : c.useEmpty with
  | false =>
    simp only [hu, Bool.false_eq_true, if_false] at h
    split at h
    · cases h
    · split at h
      · split at h
        · cases h
        · cases h; simp
      · cases h
  | true =>
    simp only [hu, if_true] at h
    cases hn : toUnsigned o.empty with
    | error e => rw [hn] at h; cases h
    | ok n =>
      rw [hn] at h
      cases n with
      | zero =>
        simp only at h
        split at h
        · cases h
        · split at h
          · split at h
            · cases h
            · cases h; simp
          · cases h
      | succ n =>
        simp only at h
        split at h
        · cases h
        · split at h
          · split at h
            · cases h
            · cases h; simp
          · cases h

/-- a beat that is not an error -/
theorem beatStep_ok (c : PkCfg) (st st' : PkState) (o : PkOut) (rep : Option PkReport) (h : pkBeatStep c st o = .ok (st', rep)) :
    (o.sop = .one → st.pkt = []) ∧ (o.sop = .one ∨ st.inPkt = true) ∧
    ∃ ch, pkCheckChannel c o st.channel = .ok ch ∧
    ((o.eop ≠ .one ∧ rep = none ∧ ∃ b, pkBody c o = .ok b ∧
      st' = { pkt := st.pkt ++ b, inPkt := true, invalidCount := st.invalidCount, channel := ch, emptyBound := st.emptyBound }) ∨
     (o.eop = .one ∧ ∃ b bound, pkLast c o st.emptyBound = .ok (b, bound) ∧
      st' = { pkt := [], inPkt := false, invalidCount := st.invalidCount, channel := none, emptyBound := bound } ∧
      rep = some ⟨st.pkt ++ b, if c.reportChannel then some ch else none⟩)) := by
  unfold pkBeatStep at h
  split at h
  · cases h
  · rename_i h1
    have hs : o.sop = .one → st.pkt = [] := by
      intro hs; by_cases hp : st.pkt = []
      · exact hp
      · exact absurd ⟨hs, hp⟩ h1
    refine ⟨hs, ?_⟩
    obtain ⟨pkt, inPkt, cnt, chan, eb⟩ := st
    simp only at h hs ⊢
    have key : ∀ ip : Bool, (if ip = false then (.error (.avalonProtocol "data outside of packet") : Except PyErr (PkState × Option PkReport))
        else if o.eop ≠ .one then
          match pkBody c o with
          | .error e => .error e
          | .ok b =>
            match pkCheckChannel c o chan with
            | .error e => .error e
            | .ok ch => .ok ({ pkt := pkt ++ b, inPkt := ip, invalidCount := cnt, channel := ch, emptyBound := eb }, none)
        else
          match pkLast c o eb with
          | .error e => .error e
          | .ok (b, bound) =>
            match pkCheckChannel c o chan with
            | .error e => .error e
            | .ok ch =>
              .ok ({ pkt := [], inPkt := false, invalidCount := cnt, channel := none, emptyBound := bound },
                some ⟨pkt ++ b, if c.reportChannel then some ch else none⟩)) = .ok (st', rep) →
        ip = true ∧ ∃ ch, pkCheckChannel c o chan = .ok ch ∧
        ((o.eop ≠ .one ∧ rep = none ∧ ∃ b, pkBody c o = .ok b ∧
          st' = { pkt := pkt ++ b, inPkt := true, invalidCount := cnt, channel := ch, emptyBound := eb }) ∨
         (o.eop = .one ∧ ∃ b bound, pkLast c o eb = .ok (b, bound) ∧
          st' = { pkt := [], inPkt := false, invalidCount := cnt, channel := none, emptyBound := bound } ∧
          rep = some ⟨pkt ++ b, if c.reportChannel then some ch else none⟩)) := by
      intro ip h
      split at h
      · cases h
      · rename_i hip
        have hip : ip = true := by simpa using hip
        subst hip
        refine ⟨rfl, ?_⟩
        split at h
        · rename_i he
          split at h
          · cases h
          · rename_i b hb
            split at h
            · cases h
            · rename_i ch hch
              cases h
              exact ⟨ch, hch, .inl ⟨he, rfl, b, hb, rfl⟩⟩
        · rename_i he
          have he : o.eop = .one := by simpa using he
          split at h
          · cases h
          · rename_i b bound hb
            split at h
            · cases h
            · rename_i ch hch
              cases h
              exact ⟨ch, hch, .inr ⟨he, b, bound, hb, rfl, rfl⟩⟩
    by_cases hsop : o.sop = .one
    · have hp := hs hsop
      subst hp
      simp only [hsop, if_true] at h
      exact ⟨.inl hsop, (key true h).2⟩
    · simp only [hsop, if_false] at h
      exact ⟨.inr (key inPkt h).1, (key inPkt h).2⟩

theorem monInv_init (c : PkCfg) : MonInv c [] {} where
  inPkt := by simp [beatsIn, openBeats]
  pkt := by simp [beatsIn, openBeats]
  count := by simp [beatsIn, openBeats]
  bound := by simp [beatsIn, openBeats]
  chNone := by simp
  chSome := by simp [beatsIn, openBeats]
  emptyBound := by simp [beatsIn, emptySeen]

theorem monInv_step (c : PkCfg) (a : List (PkOut × PkIn)) (r : PkOut × PkIn) (hd : ∀ o, eventAt c r = .beat o → o.data ≠ []) (st st' : PkState)
    (rep : Option PkReport) (h : MonInv c a st) (hs : pkStep c st r.1 r.2 = .ok (st', rep)) : MonInv c (a ++ [r]) st' := by
  have hr := readable_of_ok c st r _ hs
  have h2 := beatsIn_snoc c a r
  have h3 := idleSince_snoc c a r 0
  cases he : eventAt c r with
  | reset =>
    rw [pkStep_reset c st r he] at hs
    cases hs
    rw [he] at h2 h3
    simp only [PkEvent.beat?, Option.toList, List.append_nil] at h2 h3
    exact ⟨by rw [h2]; exact h.inPkt, by rw [h2]; exact h.pkt, by rw [h2, h3]; exact h.count, by rw [h2, h3]; exact h.bound,
      by rw [h2]; exact h.chNone, by rw [h2]; exact h.chSome, by rw [h2]; exact h.emptyBound⟩
  | idle =>
    rw [pkStep_idle c st r hr he] at hs
    rw [he] at h2 h3
    simp only [PkEvent.beat?, Option.toList, List.append_nil] at h2 h3
    cases hip : st.inPkt with
    | false =>
      rw [hip] at hs
      cases hs
      have ho : openBeats (beatsIn c a) = [] := by
        by_contra hne
        rw [h.inPkt.2 hne] at hip; cases hip
      exact ⟨by rw [h2]; exact h.inPkt, by rw [h2]; exact h.pkt, by rw [h2, ho]; simp, by rw [h2, ho]; simp,
        by rw [h2]; exact h.chNone, by rw [h2]; exact h.chSome, by rw [h2]; exact h.emptyBound⟩
    | true =>
      rw [hip] at hs
      simp only [if_true] at hs
      split at hs
      · cases hs
      · rename_i hnt
        cases hs
        have hne := h.inPkt.1 hip
        have hcnt := h.count hne
        refine ⟨by rw [h2]; simp [hne], by rw [h2]; exact h.pkt, by rw [h2, h3]; intro _; simp [hcnt], ?_,
          by rw [h2]; exact h.chNone, by rw [h2]; exact h.chSome, by rw [h2]; exact h.emptyBound⟩
        intro ht _
        rw [h3, ← hcnt]
        by_contra hge
        exact hnt ⟨ht, by omega⟩
  | beat o =>
    rw [pkStep_beat c st r hr o he] at hs
    rw [he] at h2 h3
    simp only [PkEvent.beat?, Option.toList] at h2 h3
    obtain ⟨hb1, hb2, ch, hch, hb3⟩ := beatStep_ok _ _ _ _ _ hs
    simp only at hb1 hb2 hch hb3
    obtain ⟨hc1, hc2⟩ := checkChannel_ok _ _ _ _ hch
    rcases hb3 with ⟨heop, rfl, b, hb, rfl⟩ | ⟨heop, b, bound, hb, rfl, -⟩
    · have hob : openBeats (beatsIn c (a ++ [r])) = openBeats (beatsIn c a) ++ [o] := by
        rw [h2, openBeats_snoc, if_neg heop]
      have hbne := body_ne c o b (hd o he) hb
      refine ⟨by rw [hob]; simp, by rw [hob]; simp [hbne], by rw [h3]; simp, ?_, ?_, ?_, ?_⟩
      · intro ht _; rw [h3]; omega
      · intro hx
        rcases hx with hx | hx
        · rw [hob] at hx; simp at hx
        · simp only
          rw [hc1 hx]; exact h.chNone (.inr hx)
      · intro w hw f hf
        rw [hob] at hf
        obtain ⟨x, hx1, rfl, hx3, hx4⟩ := hc2 w hw
        rcases List.mem_append.1 hf with hf | hf
        · obtain ⟨y, hy1, hy2⟩ := h.chSome w hw f hf
          exact ⟨y, hy1, by rw [hx4 y hy2]⟩
        · rw [List.mem_singleton] at hf
          subst hf
          exact ⟨x, hx1, rfl⟩
      · rw [h2]
        simp only [h.emptyBound, emptySeen, List.mem_append, List.mem_singleton]
        constructor
        · rintro ⟨q, hq, h5⟩; exact ⟨q, .inl hq, h5⟩
        · rintro ⟨q, hq | rfl, h5⟩
          · exact ⟨q, hq, h5⟩
          · exact absurd h5.1 heop
    · have hob : openBeats (beatsIn c (a ++ [r])) = [] := by
        rw [h2, openBeats_snoc, if_pos heop]
      refine ⟨by rw [hob]; simp, by rw [hob]; simp, by rw [hob]; simp, by rw [hob]; simp, fun _ => rfl, by rw [hob]; simp, ?_⟩
      rw [h2]
      simp only [pkLast_bound c o _ _ b hb, h.emptyBound, emptySeen, List.mem_append, List.mem_singleton]
      constructor
      · rintro (⟨q, hq, h5⟩ | h5)
        · exact ⟨q, .inl hq, h5⟩
        · exact ⟨o, .inr rfl, heop, h5⟩
      · rintro ⟨q, hq | rfl, h5⟩
        · exact .inl ⟨q, hq, h5⟩
        · exact .inr h5.2

theorem beatsIn_left (c : PkCfg) (a b : List (PkOut × PkIn)) (o : PkOut) (h : o ∈ beatsIn c a) : o ∈ beatsIn c (a ++ b) := by
  rw [beatsIn, List.filterMap_append]; exact List.mem_append_left _ h

theorem beatsIn_last (c : PkCfg) (a : List (PkOut × PkIn)) (r : PkOut × PkIn) (o : PkOut) (h : eventAt c r = .beat o) :
    o ∈ beatsIn c (a ++ [r]) := by
  rw [beatsIn_snoc, h]; simp [PkEvent.beat?]

theorem monInv (c : PkCfg) (a : List (PkOut × PkIn)) (hd : ∀ o ∈ beatsIn c a, o.data ≠ []) (l : List PkReport) (st : PkState)
    (h : pkMonitor c a {} = (l, .ok st)) : MonInv c a st := by
  induction a using List.reverseRecOn generalizing l st with
  | nil => cases h; exact monInv_init c
  | append_singleton a r ih =>
    obtain ⟨l1, s1, h1⟩ := pkMonitor_prefix c a [r] _ _ _ h
    rw [pkMonitor_snoc c a r _ _ _ h1] at h
    cases hs : pkStep c s1 r.1 r.2 with
    | error e => rw [hs] at h; cases h
    | ok x =>
      obtain ⟨s2, rep⟩ := x
      rw [hs] at h
      cases h
      exact monInv_step c a r (fun o ho => hd o (beatsIn_last c a r o ho)) s1 st rep
        (ih (fun o ho => hd o (beatsIn_left c a [r] o ho)) l1 s1 h1) hs

/-! ### The monitor on beats alone -/

/-- the monitor on a sequence of beats -/
def pkBeats (c : PkCfg) : List PkOut → PkState → List PkReport × Except PyErr PkState
  | [], st => ([], .ok st)
  | o :: r, st =>
    match pkBeatStep c { st with invalidCount := 0 } o with
    | .error e => ([], .error e)
    | .ok (st, rep) =>
      let (l, e) := pkBeats c r st
      (rep.toList ++ l, e)

theorem pkBeats_append (c : PkCfg) (b a : List PkOut) : ∀ (st : PkState) (l : List PkReport) (st' : PkState),
    pkBeats c a st = (l, .ok st') → pkBeats c (a ++ b) st = (l ++ (pkBeats c b st').1, (pkBeats c b st').2) := by
  induction a with
  | nil => intro st l st' h; cases h; rfl
  | cons o a ih =>
    intro st l st' h
    simp only [List.cons_append, pkBeats] at h ⊢
    cases hs : pkBeatStep c { st with invalidCount := 0 } o with
    | error e => rw [hs] at h; cases h
    | ok x =>
      obtain ⟨s1, rep⟩ := x
      rw [hs] at h
      simp only [Prod.mk.injEq] at h ⊢
      obtain ⟨h1, h2⟩ := h
      rw [ih s1 (pkBeats c a s1).1 st' (by rw [← h2])]
      simp [← h1, List.append_assoc]

theorem pkBeats_prefix (c : PkCfg) (a b : List PkOut) : ∀ (st : PkState) (l : List PkReport) (st' : PkState),
    pkBeats c (a ++ b) st = (l, .ok st') → ∃ l1 s1, pkBeats c a st = (l1, .ok s1) := by
  induction a with
  | nil => intro st _ _ _; exact ⟨[], st, rfl⟩
  | cons o a ih =>
    intro st l st' h
    simp only [List.cons_append, pkBeats] at h ⊢
    cases hs : pkBeatStep c { st with invalidCount := 0 } o with
    | error e => rw [hs] at h; cases h
    | ok x =>
      obtain ⟨s1, rep⟩ := x
      rw [hs] at h
      simp only [Prod.mk.injEq] at h
      obtain ⟨l1, s2, h2⟩ := ih s1 (pkBeats c (a ++ b) s1).1 st' (by rw [← h.2])
      exact ⟨rep.toList ++ l1, s2, by simp [h2]⟩

theorem pkBeats_count (c : PkCfg) (a : List PkOut) : ∀ (st : PkState) (l : List PkReport) (st' : PkState),
    pkBeats c a st = (l, .ok st') → l.length = ended a := by
  induction a with
  | nil => intro st l st' h; cases h; rfl
  | cons o a ih =>
    intro st l st' h
    simp only [pkBeats] at h
    cases hs : pkBeatStep c { st with invalidCount := 0 } o with
    | error e => rw [hs] at h; cases h
    | ok x =>
      obtain ⟨s1, rep⟩ := x
      rw [hs] at h
      simp only [Prod.mk.injEq] at h
      have h1 := ih s1 (pkBeats c a s1).1 st' (by rw [← h.2])
      obtain ⟨-, -, ch, -, h3⟩ := beatStep_ok _ _ _ _ _ hs
      rw [← h.1, List.length_append, h1]
      rcases h3 with ⟨h3, rfl, -⟩ | ⟨h3, b, bd, -, -, rfl⟩
      · simp [ended, h3]
      · simp [ended, h3]; omega

/-- idle and in-reset edges make no difference, as long as there is no timeout -/
theorem pkMonitor_of_beats (c : PkCfg) (t : List (PkOut × PkIn)) (hr : ∀ r ∈ t, ResetReadable r.2)
    (hd : ∀ o ∈ beatsIn c t, o.data ≠ []) (hnt : NoTimeout c t) (l : List PkReport) (st : PkState) (h : pkBeats c (beatsIn c t) {} = (l, .ok st)) :
    ∃ k, pkMonitor c t {} = (l, .ok { st with invalidCount := k }) := by
  induction t using List.reverseRecOn generalizing l st with
  | nil => cases h; exact ⟨0, rfl⟩
  | append_singleton a r ih =>
    have hnt' : NoTimeout c a := by
      rcases hnt with h0 | h0
      · exact .inl h0
      · exact .inr fun x y hxy hne => h0 x (y ++ [r]) (by rw [hxy, List.append_assoc]) hne
    have hrr := hr r (by simp)
    rw [beatsIn_snoc] at h
    obtain ⟨l1, s1, h1⟩ := pkBeats_prefix c _ _ _ _ _ h
    obtain ⟨k, hk⟩ := ih (fun q hq => hr q (by simp [hq])) (fun o ho => hd o (beatsIn_left c a [r] o ho)) hnt' l1 s1 h1
    have hinv := monInv c a (fun o ho => hd o (beatsIn_left c a [r] o ho)) _ _ hk
    rw [pkMonitor_snoc c a r _ _ _ hk]
    rw [pkBeats_append c _ _ _ _ _ h1] at h
    cases he : eventAt c r with
    | reset =>
      rw [he] at h
      simp only [PkEvent.beat?, Option.toList, pkBeats, List.append_nil] at h
      cases h
      rw [pkStep_reset c _ r he]
      exact ⟨k, by simp⟩
    | idle =>
      rw [he] at h
      simp only [PkEvent.beat?, Option.toList, pkBeats, List.append_nil] at h
      cases h
      rw [pkStep_idle c _ r hrr he]
      simp only
      cases hip : st.inPkt with
      | false => exact ⟨k, by simp⟩
      | true =>
        have hne := hinv.inPkt.1 hip
        have hcnt := hinv.count hne
        simp only at hcnt
        have hb : beatsIn c (a ++ [r]) = beatsIn c a := by rw [beatsIn_snoc, he]; simp [PkEvent.beat?]
        have hi : idleSince c 0 (a ++ [r]) = idleSince c 0 a + 1 := by rw [idleSince_snoc, he]
        simp only [if_true]
        rw [if_neg]
        · exact ⟨k + 1, by simp⟩
        · rintro ⟨ht1, ht2⟩
          rcases hnt with h0 | h0
          · exact ht1 h0
          · have := h0 (a ++ [r]) [] (by simp) (by rw [hb]; exact hne)
            omega
    | beat o =>
      rw [he] at h
      simp only [PkEvent.beat?, Option.toList, pkBeats] at h
      rw [pkStep_beat c _ r hrr o he]
      cases hs : pkBeatStep c { s1 with invalidCount := 0 } o with
      | error e => rw [hs] at h; cases h
      | ok x =>
        obtain ⟨s2, rep⟩ := x
        rw [hs] at h
        simp only [Prod.mk.injEq, Except.ok.injEq] at h
        obtain ⟨ha, rfl⟩ := h
        refine ⟨s2.invalidCount, ?_⟩
        rw [← ha]
        cases rep <;> simp

/-! ### Well-formed packets -/

theorem wordBits_full (hf : Bool) (n : Nat) (b : Bytes) (h : b.length = n) :
    wordBits hf n b = joinBytes (if hf then b else b.reverse) := by
  unfold wordBits
  subst h
  cases hf <;> simp

theorem body_bytes (c : PkCfg) (n : Nat) (b : Bytes) (ch : Option Nat) (o : PkOut) (h : BodyBeat c n b ch o) : pkBody c o = .ok b := by
  unfold pkBody
  rw [h.data, wordBits_full _ _ _ h.len, pinValue_array _ (by rw [joinBytes_length]; omega), convert_joinBytes]
  cases c.highFirst <;> simp

theorem last_bytes (c : PkCfg) (n : Nat) (b : Bytes) (ch : Option Nat) (o : PkOut) (h : LastBeat c n b ch o) (eb : Bool) :
    ∃ eb', pkLast c o eb = .ok (b, eb') := by
  obtain ⟨junk, hj, hdata⟩ := h.data
  have fin : ∀ (value : LogicArray) (bd : Bool), value = joinBytes (if c.highFirst then b else b.reverse) →
      (match createBinaryStr value value.length with
      | .error e => .error e
      | .ok vec =>
        if vec.resolvable then
          match convertBinaryToBytes vec c.highFirst with
          | .error e => .error e
          | .ok b => .ok (b, bd)
        else .error (if bd then .avalonProtocol "bad value" else .unboundLocal)) = (.ok (b, bd) : Except PyErr (Bytes × Bool)) := by
    intro value bd hv
    subst hv
    have h1 : ¬ ((joinBytes (if c.highFirst then b else b.reverse)).length = 1) := by rw [joinBytes_length]; omega
    simp only [createBinaryStr, h1, if_false, if_true, BinVal.resolvable, isResolvable_joinBytes, convert_joinBytes]
    cases c.highFirst <;> simp
  have hlen : o.data.length = 8 * n := by
    have := h.len
    rw [hdata]
    split <;> simp [hj] <;> omega
  unfold pkLast
  cases hu : c.useEmpty with
  | false =>
    have he := h.empty
    simp only [hu, Bool.false_eq_true, if_false] at he ⊢
    have hj0 : junk = [] := List.eq_nil_of_length_eq_zero (by omega)
    refine ⟨eb, fin _ _ ?_⟩
    rw [hdata, hj0]
    cases c.highFirst <;> simp
  | true =>
    have he := h.empty
    simp only [hu, if_true] at he ⊢
    obtain ⟨e, he1, he2⟩ := he
    rw [he1]
    cases e with
    | zero =>
      simp only
      have hj0 : junk = [] := List.eq_nil_of_length_eq_zero (by omega)
      refine ⟨eb, fin _ _ ?_⟩
      rw [hdata, hj0]
      cases c.highFirst <;> simp
    | succ e =>
      simp only
      refine ⟨true, fin _ _ ?_⟩
      have hl := h.len
      generalize (e + 1) * c.bitsPerSymbol = d at he2 ⊢
      cases hh : c.highFirst with
      | true =>
        simp only [if_true]
        rw [show o.data.length - d = 8 * n - 8 * (n - b.length) by omega]
        simp only [if_true, hdata, hh]
        rw [show 8 * n - 8 * (n - b.length) = (joinBytes b).length by rw [joinBytes_length]; omega, List.take_left]
      | false =>
        simp only [Bool.false_eq_true, if_false]
        have hd : o.data.drop d = o.data.drop (8 * (n - b.length)) := by
          by_cases hle : d ≤ 8 * n
          · rw [show d = 8 * (n - b.length) by omega]
          · rw [List.drop_eq_nil_of_le (by omega), List.drop_eq_nil_of_le (by omega)]
        rw [hd]
        simp only [Bool.false_eq_true, if_false, hdata, hh]
        rw [← hj, List.drop_left]

/-- the monitor's variables when the next beat is the first, or a further one, of a packet -/
def Ready (ch : Option Nat) (st : PkState) (o : PkOut) : Prop :=
  (st.pkt = [] ∧ st.channel = none ∧ o.sop = .one) ∨ (st.inPkt = true ∧ o.sop ≠ .one ∧ st.channel = ch)

theorem check_ok (c : PkCfg) (ch : Option Nat) (st : PkState) (o : PkOut) (hst : Ready ch st o)
    (hch : ∀ w, c.channelW = some w → ∃ x, ch = some x ∧ toUnsigned o.channel = .ok x)
    (hrange : ∀ x, ch = some x → x ≤ c.maxChannel) (hnone : c.channelW = none → ch = none) :
    pkCheckChannel c o st.channel = .ok ch := by
  unfold pkCheckChannel
  cases hw : c.channelW with
  | none =>
    rw [hnone hw]
    rcases hst with ⟨-, h, -⟩ | ⟨-, -, h⟩
    · rw [h]
    · rw [h, hnone hw]
  | some w =>
    obtain ⟨x, hx, hx2⟩ := hch w hw
    simp only [hx2]
    rcases hst with ⟨-, h, -⟩ | ⟨-, -, h⟩
    · rw [h]
      simp only
      rw [if_neg (by have := hrange x hx; omega), hx]
    · rw [h, hx]; simp

theorem beatStep_body (c : PkCfg) (n : Nat) (b : Bytes) (ch : Option Nat) (o : PkOut) (st : PkState) (h : BodyBeat c n b ch o)
    (hst : Ready ch st o) (hrange : ∀ x, ch = some x → x ≤ c.maxChannel) (hnone : c.channelW = none → ch = none) :
    pkBeatStep c st o = .ok ({ pkt := st.pkt ++ b, inPkt := true, invalidCount := st.invalidCount, channel := ch, emptyBound := st.emptyBound }, none) := by
  have h1 := check_ok c ch st o hst h.channel hrange hnone
  have h2 := body_bytes c n b ch o h
  unfold pkBeatStep
  rcases hst with ⟨a, b', d⟩ | ⟨a, b', d⟩
  · simp only [d, a, ne_eq, not_true_eq_false, and_false, if_false, if_true]
    simp [h.eop, h2, h1]
  · simp only [b', false_and, if_false, a]
    simp [h.eop, h2, h1]

theorem beatStep_last (c : PkCfg) (n : Nat) (b : Bytes) (ch : Option Nat) (o : PkOut) (st : PkState) (h : LastBeat c n b ch o)
    (hst : Ready ch st o) (hrange : ∀ x, ch = some x → x ≤ c.maxChannel) (hnone : c.channelW = none → ch = none) :
    ∃ eb, pkBeatStep c st o = .ok ({ pkt := [], inPkt := false, invalidCount := st.invalidCount, channel := none, emptyBound := eb },
      some (reportOf c (st.pkt ++ b) ch)) := by
  have h1 := check_ok c ch st o hst h.channel hrange hnone
  obtain ⟨eb, h2⟩ := last_bytes c n b ch o h st.emptyBound
  refine ⟨eb, ?_⟩
  unfold pkBeatStep
  rcases hst with ⟨a, b', d⟩ | ⟨a, b', d⟩
  · simp only [d, a, ne_eq, not_true_eq_false, and_false, if_false, if_true]
    simp [h.eop, h2, h1, reportOf]
  · simp only [b', false_and, if_false, a]
    simp [h.eop, h2, h1, reportOf]

theorem pkBeats_rest (c : PkCfg) (n : Nat) (ch : Option Nat) (hrange : ∀ x, ch = some x → x ≤ c.maxChannel)
    (hnone : c.channelW = none → ch = none) (lastB : Bytes) (last : PkOut) (hl : LastBeat c n lastB ch last)
    (bodies : List (Bytes × PkOut)) : ∀ (st : PkState), st.inPkt = true → st.channel = ch → (∀ p ∈ bodies, BodyBeat c n p.1 ch p.2) →
    (∀ o ∈ bodies.map Prod.snd ++ [last], o.sop ≠ .one) →
    ∃ eb, pkBeats c (bodies.map Prod.snd ++ [last]) st =
      ([reportOf c (st.pkt ++ (bodies.map Prod.fst).flatten ++ lastB) ch], .ok { emptyBound := eb }) := by
  induction bodies with
  | nil =>
    intro st h1 h2 _ h4
    obtain ⟨eb, h5⟩ := beatStep_last c n lastB ch last { st with invalidCount := 0 } hl
      (.inr ⟨h1, h4 last (by simp), h2⟩) hrange hnone
    exact ⟨eb, by simp [pkBeats, h5]⟩
  | cons p r ih =>
    intro st h1 h2 h3 h4
    have h5 := beatStep_body c n p.1 ch p.2 { st with invalidCount := 0 } (h3 p (by simp))
      (.inr ⟨h1, h4 p.2 (by simp), h2⟩) hrange hnone
    obtain ⟨eb, h6⟩ := ih { pkt := st.pkt ++ p.1, inPkt := true, invalidCount := 0, channel := ch, emptyBound := st.emptyBound } rfl rfl
      (fun q hq => h3 q (by simp [hq])) (fun o ho => h4 o (by simp at ho ⊢; tauto))
    refine ⟨eb, ?_⟩
    simp only [List.map_cons, List.cons_append, pkBeats, h5, h6]
    simp

/-- the monitor on the beats of one packet -/
theorem pkBeats_packet (c : PkCfg) (n : Nat) (pkt : Bytes) (ch : Option Nat) (beats : List PkOut) (h : PacketOn c n pkt ch beats)
    (eb0 : Bool) : ∃ eb, pkBeats c beats { emptyBound := eb0 } = ([reportOf c pkt ch], .ok { emptyBound := eb }) := by
  obtain ⟨bodies, lastB, last, rfl, rfl, hbod, hlast⟩ := h.shape
  cases bodies with
  | nil =>
    have hs := (h.sop 0 last (by simp)).2 rfl
    obtain ⟨eb, h5⟩ := beatStep_last c n lastB ch last { emptyBound := eb0 } hlast (.inl ⟨rfl, rfl, hs⟩) h.range h.none
    exact ⟨eb, by simp [pkBeats, h5]⟩
  | cons p r =>
    have hs := (h.sop 0 p.2 (by simp)).2 rfl
    have h5 := beatStep_body c n p.1 ch p.2 { emptyBound := eb0 } (hbod p (by simp)) (.inl ⟨rfl, rfl, hs⟩) h.range h.none
    obtain ⟨eb, h6⟩ := pkBeats_rest c n ch h.range h.none lastB last hlast r
      { pkt := p.1, inPkt := true, invalidCount := 0, channel := ch, emptyBound := eb0 } rfl rfl
      (fun q hq => hbod q (by simp [hq])) (by
        intro o ho hso
        obtain ⟨j, hj⟩ := List.mem_iff_getElem?.1 ho
        have := (h.sop (j + 1) o (by simpa using hj)).1 hso
        omega)
    refine ⟨eb, ?_⟩
    simp only [List.map_cons, List.cons_append, pkBeats, h5, List.nil_append, h6]
    simp

/-- the monitor on the beats of a sequence of packets -/
theorem pkBeats_packets (c : PkCfg) (n : Nat) (ps : List (Bytes × Option Nat × List PkOut))
    (h : ∀ p ∈ ps, PacketOn c n p.1 p.2.1 p.2.2) : ∀ eb0 : Bool,
    ∃ eb, pkBeats c (ps.flatMap (fun p => p.2.2)) { emptyBound := eb0 } =
      (ps.map (fun p => reportOf c p.1 p.2.1), .ok { emptyBound := eb }) := by
  induction ps with
  | nil => intro eb0; exact ⟨eb0, rfl⟩
  | cons p r ih =>
    intro eb0
    obtain ⟨eb1, h1⟩ := pkBeats_packet c n _ _ _ (h p (by simp)) eb0
    obtain ⟨eb, h2⟩ := ih (fun q hq => h q (by simp [hq])) eb1
    refine ⟨eb, ?_⟩
    rw [List.flatMap_cons, pkBeats_append c _ _ _ _ _ h1, h2]
    rfl

theorem packet_data (c : PkCfg) (n : Nat) (pkt : Bytes) (ch : Option Nat) (beats : List PkOut) (h : PacketOn c n pkt ch beats) :
    ∀ o ∈ beats, o.data.length = 8 * n := by
  obtain ⟨bodies, lastB, last, rfl, rfl, hbod, hlast⟩ := h.shape
  intro o ho
  rcases List.mem_append.1 ho with ho | ho
  · obtain ⟨p, hp, rfl⟩ := List.mem_map.1 ho
    have hb := hbod p hp
    rw [hb.data, wordBits_full _ _ _ hb.len, joinBytes_length]
    have := hb.len
    split <;> simp [this]
  · rw [List.mem_singleton] at ho
    subst ho
    obtain ⟨junk, hj, hdata⟩ := hlast.data
    have := hlast.len
    rw [hdata]
    split <;> simp [hj] <;> omega

/-- the monitor on a trace that stops anywhere in a sequence of packets -/
theorem pkMonitor_packets (c : PkCfg) (n : Nat) (hn : 0 < n) (ps : List (Bytes × Option Nat × List PkOut))
    (h : ∀ p ∈ ps, PacketOn c n p.1 p.2.1 p.2.2) (t : List (PkOut × PkIn)) (hr : ∀ r ∈ t, ResetReadable r.2)
    (hnt : NoTimeout c t) (hp : beatsIn c t <+: ps.flatMap (fun p => p.2.2)) :
    ∃ st, pkMonitor c t {} = ((ps.map (fun p => reportOf c p.1 p.2.1)).take (ended (beatsIn c t)), .ok st) := by
  obtain ⟨eb, h1⟩ := pkBeats_packets c n ps h false
  obtain ⟨w, hw⟩ := hp
  rw [← hw] at h1
  obtain ⟨l1, s1, h2⟩ := pkBeats_prefix c _ _ _ _ _ h1
  have hd : ∀ o ∈ beatsIn c t, o.data ≠ [] := by
    intro o ho
    have ho2 : o ∈ ps.flatMap (fun p => p.2.2) := by rw [← hw]; exact List.mem_append_left _ ho
    obtain ⟨p, hp, hop⟩ := List.mem_flatMap.1 ho2
    have := packet_data c n _ _ _ (h p hp) o hop
    intro he
    rw [he] at this
    simp at this; omega
  obtain ⟨k, h3⟩ := pkMonitor_of_beats c t hr hd hnt l1 s1 h2
  refine ⟨{ s1 with invalidCount := k }, h3.trans ?_⟩
  rw [pkBeats_append c _ _ _ _ _ h2] at h1
  have hl := pkBeats_count c _ _ _ _ h2
  congr 1
  simp only [Prod.mk.injEq] at h1
  rw [← h1.1, ← hl, List.take_left]

theorem ended_packets (c : PkCfg) (n : Nat) (ps : List (Bytes × Option Nat × List PkOut))
    (h : ∀ p ∈ ps, PacketOn c n p.1 p.2.1 p.2.2) : ended (ps.flatMap (fun p => p.2.2)) = ps.length := by
  obtain ⟨eb, h1⟩ := pkBeats_packets c n ps h false
  have := pkBeats_count c _ _ _ _ h1
  simp at this
  exact this.symm

/-! ### The data of a beat -/

theorem decodable_body (c : PkCfg) (o : PkOut) (h : Decodable c o) (he : o.eop ≠ .one) : ∃ b, pkBody c o = .ok b := by
  obtain ⟨b, hb, -⟩ := convert_pin o.data c.highFirst (h.body he).1 (h.body he).2
  exact ⟨b, hb⟩

/-- how the last beat is decoded -/
theorem pkLast_eq (c : PkCfg) (o : PkOut) (eb : Bool) (e : Nat) (he : EmptyIs c o e) :
    pkLast c o eb = (match createBinaryStr (unmasked c e o) (unmasked c e o).length with
    | .error x => .error x
    | .ok vec =>
      if vec.resolvable then
        match convertBinaryToBytes vec c.highFirst with
        | .error x => .error x
        | .ok b => .ok (b, eb || e != 0)
      else .error (if (eb || e != 0) then .avalonProtocol "bad value" else .unboundLocal)) := by
  have hz : unmasked c 0 o = o.data := by unfold unmasked; split <;> simp
  unfold pkLast
  unfold EmptyIs at he
  cases hu : c.useEmpty with
  | false =>
    rw [hu] at he
    simp only [Bool.false_eq_true, if_false] at he ⊢
    subst he
    rw [hz]
    simp
    rfl
  | true =>
    rw [hu] at he
    simp only [if_true] at he ⊢
    rw [he]
    cases e with
    | zero => simp only [hz]; simp; rfl
    | succ e => simp only [unmasked]; simp; rfl

theorem createBinaryStr_self (v : LogicArray) : ∃ b, createBinaryStr v v.length = .ok b ∧ b.resolvable = isResolvable v ∧
    (v.length ≠ 1 → b = .array v) := by
  unfold createBinaryStr
  split
  · rename_i h
    obtain ⟨y, hy⟩ := List.length_eq_one_iff.1 h
    subst hy
    exact ⟨.logic y, rfl, by simp [BinVal.resolvable, isResolvable], by simp⟩
  · exact ⟨.array v, by simp, rfl, fun _ => rfl⟩

theorem decodable_last (c : PkCfg) (o : PkOut) (eb : Bool) (h : Decodable c o) (he : o.eop = .one) :
    ∃ b eb', pkLast c o eb = .ok (b, eb') := by
  obtain ⟨e, h1, h2, h3⟩ := h.last he
  rw [pkLast_eq c o eb e h1]
  obtain ⟨b, hb, hb2, hb3⟩ := createBinaryStr_self (unmasked c e o)
  rw [hb]
  simp only [hb2, h2, if_true]
  rw [hb3 h3]
  simp only [convertBinaryToBytes, toUnsigned, h2, if_true]
  exact ⟨_, _, rfl⟩

/-- a last beat with X or Z outside its empty symbols -/
theorem pkLast_bad (c : PkCfg) (o : PkOut) (eb : Bool) (e : Nat) (he : EmptyIs c o e) (hx : isResolvable (unmasked c e o) = false) :
    pkLast c o eb = .error (if (eb || e != 0) then .avalonProtocol "bad value" else .unboundLocal) := by
  rw [pkLast_eq c o eb e he]
  obtain ⟨b, hb, hb2, -⟩ := createBinaryStr_self (unmasked c e o)
  rw [hb]
  simp [hb2, hx]

/-! ### Errors -/

/-- the next record of an error-free run is an error -/
theorem pkMonitor_error (c : PkCfg) (a b : List (PkOut × PkIn)) (r : PkOut × PkIn) (l : List PkReport) (st : PkState) (e : PyErr)
    (h : pkMonitor c a {} = (l, .ok st)) (he : pkStep c st r.1 r.2 = .error e) :
    pkMonitor c (a ++ r :: b) {} = (l, .error e) := by
  rw [pkMonitor_append c (r :: b) a _ _ _ h]
  obtain ⟨o, i⟩ := r
  simp only [pkMonitor]
  simp only at he
  rw [he]
  simp

/-- the start of the work on a beat inside a packet -/
theorem beatStep_framed (c : PkCfg) (st : PkState) (o : PkOut) (hf : (o.sop = .one ∧ st.pkt = []) ∨ (o.sop ≠ .one ∧ st.inPkt = true)) :
    pkBeatStep c st o = if o.eop ≠ .one then
        match pkBody c o with
        | .error e => .error e
        | .ok b =>
          match pkCheckChannel c o st.channel with
          | .error e => .error e
          | .ok ch => .ok ({ pkt := st.pkt ++ b, inPkt := true, invalidCount := st.invalidCount, channel := ch, emptyBound := st.emptyBound }, none)
      else
        match pkLast c o st.emptyBound with
        | .error e => .error e
        | .ok (b, bound) =>
          match pkCheckChannel c o st.channel with
          | .error e => .error e
          | .ok ch =>
            .ok ({ pkt := [], inPkt := false, invalidCount := st.invalidCount, channel := none, emptyBound := bound },
              some ⟨st.pkt ++ b, if c.reportChannel then some ch else none⟩) := by
  unfold pkBeatStep
  rcases hf with ⟨h1, h2⟩ | ⟨h1, h2⟩
  · simp [h1, h2]
  · simp [h1, h2]

theorem pkLast_not_timeout (c : PkCfg) (o : PkOut) (eb : Bool) : pkLast c o eb ≠ .error (.avalonProtocol "timeout") := by
  intro h
  have hconv : ∀ v be, convertBinaryToBytes v be ≠ .error (.avalonProtocol "timeout") := by
    intro v be hh
    unfold convertBinaryToBytes toUnsigned at hh
    split at hh
    · cases hh
    · split at hh
      · rename_i h2; split at h2
        · cases h2
        · cases h2; cases hh
      · cases hh
  have fin : ∀ (value : LogicArray) (bd : Bool),
      (match createBinaryStr value value.length with
      | .error e => .error e
      | .ok vec =>
        if vec.resolvable then
          match convertBinaryToBytes vec c.highFirst with
          | .error e => .error e
          | .ok b => .ok (b, bd)
        else .error (if bd then .avalonProtocol "bad value" else .unboundLocal)) ≠ (.error (.avalonProtocol "timeout") : Except PyErr (Bytes × Bool)) := by
    intro value bd
    obtain ⟨b, hb, -⟩ := createBinaryStr_self value
    rw [hb]
    simp only
    split
    · split
      · rename_i x hx; intro hh; cases hh; exact hconv _ _ hx
      · simp
    · split <;> simp
  by_cases hu : c.useEmpty = true
  · cases hn : toUnsigned o.empty with
    | error x =>
      unfold pkLast at h
      simp only [hu, if_true, hn] at h
      unfold toUnsigned at hn
      split at hn
      · cases hn
      · cases hn; cases h
    | ok e => 
      rw [pkLast_eq c o eb e (by unfold EmptyIs; rw [if_pos hu]; exact hn)] at h
      exact fin _ _ h
  · rw [pkLast_eq c o eb 0 (by unfold EmptyIs; rw [if_neg hu])] at h
    exact fin _ _ h

theorem beatStep_not_timeout (c : PkCfg) (st : PkState) (o : PkOut) : pkBeatStep c st o ≠ .error (.avalonProtocol "timeout") := by
  intro h
  have hch : ∀ ch, pkCheckChannel c o ch ≠ .error (.avalonProtocol "timeout") := by
    intro ch hh
    unfold pkCheckChannel toUnsigned at hh
    split at hh
    · cases hh
    · split at hh
      · rename_i h2; split at h2
        · cases h2
        · cases h2; cases hh
      · split at hh <;> split at hh <;> simp at hh
  have hbody : pkBody c o ≠ .error (.avalonProtocol "timeout") := by
    intro hh
    unfold pkBody convertBinaryToBytes toUnsigned at hh
    split at hh
    · cases hh
    · split at hh
      · rename_i h2; split at h2
        · cases h2
        · cases h2; cases hh
      · cases hh
  by_cases h1 : o.sop = .one
  · by_cases h2 : st.pkt = []
    · rw [beatStep_framed c st o (.inl ⟨h1, h2⟩)] at h
      split at h
      · split at h
        · rename_i x hx; cases h; exact hbody hx
        · split at h
          · rename_i x hx; cases h; exact hch _ hx
          · cases h
      · split at h
        · rename_i x hx; cases h; exact pkLast_not_timeout c o _ hx
        · split at h
          · rename_i x hx; cases h; exact hch _ hx
          · cases h
    · rw [pkBeatStep, if_pos ⟨h1, h2⟩] at h
      simp at h
  · by_cases h2 : st.inPkt = true
    · rw [beatStep_framed c st o (.inr ⟨h1, h2⟩)] at h
      split at h
      · split at h
        · rename_i x hx; cases h; exact hbody hx
        · split at h
          · rename_i x hx; cases h; exact hch _ hx
          · cases h
      · split at h
        · rename_i x hx; cases h; exact pkLast_not_timeout c o _ hx
        · split at h
          · rename_i x hx; cases h; exact hch _ hx
          · cases h
    · have h2 : st.inPkt = false := by simpa using h2
      rw [pkBeatStep, if_neg (by simp [h1])] at h
      simp [h1, h2] at h

/-- a channel error in a beat -/
theorem beatStep_channel (c : PkCfg) (st : PkState) (o : PkOut) (hf : (o.sop = .one ∧ st.pkt = []) ∨ (o.sop ≠ .one ∧ st.inPkt = true))
    (e0 : PyErr) (hch : pkCheckChannel c o st.channel = .error e0) :
    ∃ e, pkBeatStep c st o = .error e ∧ (Decodable c o → e = e0) := by
  rw [beatStep_framed c st o hf]
  by_cases he : o.eop = .one
  · simp only [he, ne_eq, not_true_eq_false, if_false, hch]
    cases hp : pkLast c o st.emptyBound with
    | error x =>
      refine ⟨x, rfl, fun hd => ?_⟩
      obtain ⟨b, eb, h2⟩ := decodable_last c o st.emptyBound hd he
      rw [hp] at h2; cases h2
    | ok x => exact ⟨e0, rfl, fun _ => rfl⟩
  · simp only [ne_eq, he, not_false_eq_true, if_true, hch]
    cases hp : pkBody c o with
    | error x =>
      refine ⟨x, rfl, fun hd => ?_⟩
      obtain ⟨b, h2⟩ := decodable_body c o hd he
      rw [hp] at h2; cases h2
    | ok x => exact ⟨e0, rfl, fun _ => rfl⟩

/-! ### The driver's beats are well-formed packets -/

theorem toUnsigned_natToBits (w n : Nat) (h : n < 2 ^ w) : toUnsigned (natToBits w n) = .ok n := by
  simp [toUnsigned, bitsToNat_natToBits, Nat.mod_eq_of_lt h]

theorem chNum_lt (c : PkCfg) (n : Nat) (hb : ByteBus c n) (ch : Option Int) (hc : ChannelOk c ch) (w : Nat) (hw : c.channelW = some w) :
    chNum ch ≤ c.maxChannel ∧ chNum ch < 2 ^ w := by
  have h1 := hb.channel w hw
  unfold ChannelOk at hc
  rw [hw] at hc
  unfold chNum
  cases ch with
  | none => simp; omega
  | some x => simp only [Option.getD_some] at hc ⊢; omega

theorem payload_channel (c : PkCfg) (n : Nat) (hb : ByteBus c n) (ch : Option Int) (hc : ChannelOk c ch) (o : PkOut)
    (h : ((pkStream c).payload o).channel = c.channelW.map (fun w => natToBits w (chNum ch))) :
    ∀ w, c.channelW = some w → ∃ x, c.channelW.map (fun _ => chNum ch) = some x ∧ toUnsigned o.channel = .ok x := by
  intro w hw
  simp only [pkStream, hw, Option.isSome_some, if_true, Option.map_some, Option.some.injEq] at h
  exact ⟨chNum ch, by simp [hw], by rw [h]; exact toUnsigned_natToBits _ _ (chNum_lt c n hb ch hc w hw).2⟩

theorem packet_shape (c : PkCfg) (n : Nat) (hb : ByteBus c n) (ch : Option Int) (hc : ChannelOk c ch) (k : Nat) :
    ∀ (first : Bool) (pkt : Bytes) (L : List PkOut), pkt ≠ [] → pkt.length ≤ k → (c.bitsPerSymbol = 8 ∨ n ∣ pkt.length) →
    L.map (pkStream c).payload = beatsFrom c n first pkt (chNum ch) →
    ∃ (bodies : List (Bytes × PkOut)) (lastB : Bytes) (last : PkOut),
      L = bodies.map Prod.snd ++ [last] ∧ pkt = (bodies.map Prod.fst).flatten ++ lastB ∧
      (∀ p ∈ bodies, BodyBeat c n p.1 (c.channelW.map (fun _ => chNum ch)) p.2) ∧
      LastBeat c n lastB (c.channelW.map (fun _ => chNum ch)) last := by
  induction k with
  | zero => intro first pkt L hne hl; exact absurd (List.eq_nil_of_length_eq_zero (by omega)) hne
  | succ k ih =>
    intro first pkt L hne hl hsym hL
    have hpos : 0 < pkt.length := List.length_pos_iff.2 hne
    by_cases hlen : pkt.length ≤ n
    · rw [beatsFrom_small c n hb.pos first pkt (chNum ch) hne hlen] at hL
      cases L with
      | nil => simp at hL
      | cons o L =>
        simp only [List.map_cons, List.cons.injEq, List.map_eq_nil_iff] at hL
        obtain ⟨hL, rfl⟩ := hL
        have heop := congrArg Beat.eop hL
        have hdata := congrArg Beat.data hL
        have hempty := congrArg Beat.empty hL
        have hch := congrArg Beat.channel hL
        refine ⟨[], pkt, o, rfl, rfl, by simp, ⟨heop, hlen, ?_, ?_, payload_channel c n hb ch hc o hch⟩⟩
        · have hdata' : o.data = wordBits c.highFirst n pkt := hdata
          rw [hdata', wordBits]
          refine ⟨joinBytes (List.replicate (n - pkt.length) 0), by simp, ?_⟩
          cases c.highFirst <;> simp
        · cases hu : c.useEmpty with
          | true =>
            obtain ⟨w, hw, hw2⟩ := hb.empty hu
            simp only [pkStream, hu, if_true, Option.some.injEq, hw, Option.getD_some] at hempty
            simp only [if_true]
            refine ⟨n - pkt.length, by rw [hempty]; exact toUnsigned_natToBits _ _ (by omega), ?_⟩
            rcases hsym with h8 | h8
            · rw [h8, Nat.mul_comm]; omega
            · have := Nat.le_of_dvd hpos h8
              rw [show n - pkt.length = 0 by omega]; simp
          | false =>
            simp only [Bool.false_eq_true, if_false]
            rcases hsym with h8 | h8
            · have : ¬ (c.width > c.bitsPerSymbol) := by simpa [PkCfg.useEmpty] using hu
              rw [hb.width, h8] at this
              omega
            · have := Nat.le_of_dvd hpos h8
              omega
    · rw [beatsFrom_big c n hb.pos first pkt (chNum ch) (by omega)] at hL
      cases L with
      | nil => simp at hL
      | cons o L =>
        simp only [List.map_cons, List.cons.injEq] at hL
        obtain ⟨hL, hL2⟩ := hL
        have heop := congrArg Beat.eop hL
        have hdata := congrArg Beat.data hL
        have hch := congrArg Beat.channel hL
        have hdl : (pkt.drop n).length = pkt.length - n := List.length_drop
        have hd : pkt.drop n ≠ [] := by
          intro h; rw [h] at hdl; simp at hdl; omega
        obtain ⟨bodies, lastB, last, h1, h2, h3, h4⟩ := ih false (pkt.drop n) L hd (by rw [hdl]; have := hb.pos; omega)
          (hsym.imp id (fun h => by rw [hdl]; exact Nat.dvd_sub h (Nat.dvd_refl n))) hL2
        refine ⟨(pkt.take n, o) :: bodies, lastB, last, by simp [h1], ?_, ?_, h4⟩
        · simp only [List.map_cons, List.flatten_cons, List.append_assoc, ← h2, List.take_append_drop]
        · intro p hp
          rcases List.mem_cons.1 hp with rfl | hp
          · refine ⟨?_, ?_, hdata, payload_channel c n hb ch hc o hch⟩
            · have heop' : o.eop = .zero := heop
              simp [heop']
            · simp; omega
          · exact h3 p hp

theorem comesBack_same (c : PkCfg) (n : Nat) (hb : ByteBus c n) (k : Nat) (hk : c.bitsPerSymbol = 8 * k) (pkt : Bytes) (hne : pkt ≠ [])
    (h : k = 1 ∨ n ∣ pkt.length) : comesBack c.useEmpty n k pkt = pkt := by
  have hn := hb.pos
  have hpos : 0 < pkt.length := List.length_pos_iff.2 hne
  have h1 : pkt.length ≤ n * beatCount n pkt.length ∧ n * beatCount n pkt.length < pkt.length + n := by
    unfold beatCount
    have := Nat.div_add_mod (pkt.length + n - 1) n
    have := Nat.mod_lt (pkt.length + n - 1) hn
    omega
  unfold comesBack
  simp only
  rcases h with rfl | h
  · cases hu : c.useEmpty with
    | true => simp only [if_true]; rw [List.take_of_length_le]; omega
    | false =>
      have : ¬ (c.width > c.bitsPerSymbol) := by simpa [PkCfg.useEmpty] using hu
      rw [hb.width, hk] at this
      have : n = 1 := by omega
      rw [show n * beatCount n pkt.length - pkt.length = 0 by omega]
      simp
  · have h2 : n * beatCount n pkt.length = pkt.length := by
      obtain ⟨q, hq⟩ := h
      have h3 : n * q < n * (beatCount n pkt.length + 1) := by rw [Nat.mul_add]; omega
      have h4 : n * beatCount n pkt.length < n * (q + 1) := by rw [Nat.mul_add]; omega
      have := Nat.lt_of_mul_lt_mul_left h3
      have := Nat.lt_of_mul_lt_mul_left h4
      rw [hq, show beatCount n (n * q) = q by rw [← hq]; omega]
    rw [h2]
    split <;> simp

theorem comesBack_big (u : Bool) (n k : Nat) (hn : 0 < n) (pkt : Bytes) (h : n < pkt.length) :
    comesBack u n k pkt = pkt.take n ++ comesBack u n k (pkt.drop n) := by
  have hdl : (pkt.drop n).length = pkt.length - n := List.length_drop
  have h1 : n * beatCount n pkt.length = n * beatCount n (pkt.length - n) + n := by
    rw [beatCount_big n _ hn h, Nat.mul_add, Nat.mul_one]
  have h2 : n ≤ n * beatCount n (pkt.length - n) := Nat.le_mul_of_pos_right _ (beatCount_pos n _ hn (by omega))
  unfold comesBack
  simp only [hdl, h1]
  rw [show n * beatCount n (pkt.length - n) + n - pkt.length = n * beatCount n (pkt.length - n) - (pkt.length - n) by omega]
  generalize n * beatCount n (pkt.length - n) - (pkt.length - n) = d
  cases u with
  | true =>
    simp only [if_true]
    generalize hB : n * beatCount n (pkt.length - n) = B at h2 ⊢
    generalize hm : min n (d * k) = m
    have hmn : m ≤ n := by omega
    rw [show B + n - m = n + (B - m) by omega, List.take_add]
  | false =>
    simp only [Bool.false_eq_true, if_false]
    rw [← List.append_assoc, List.take_append_drop]

theorem comesBack_small (u : Bool) (n k : Nat) (hn : 0 < n) (pkt : Bytes) (hne : pkt ≠ []) (h : pkt.length ≤ n) :
    comesBack u n k pkt = if u then pkt.take (n - min n ((n - pkt.length) * k)) else pkt ++ List.replicate (n - pkt.length) 0 := by
  unfold comesBack
  simp only [beatCount_small n _ hn (List.length_pos_iff.2 hne) h, Nat.mul_one]

theorem packet_shape_sym (c : PkCfg) (n : Nat) (hb : ByteBus c n) (ch : Option Int) (hc : ChannelOk c ch) (j : Nat) (hj : c.bitsPerSymbol = 8 * j) (k : Nat)
    (hj0 : 0 < j) :
    ∀ (first : Bool) (pkt : Bytes) (L : List PkOut), pkt ≠ [] → pkt.length ≤ k →
    L.map (pkStream c).payload = beatsFrom c n first pkt (chNum ch) →
    ∃ (bodies : List (Bytes × PkOut)) (lastB : Bytes) (last : PkOut),
      L = bodies.map Prod.snd ++ [last] ∧ comesBack c.useEmpty n j pkt = (bodies.map Prod.fst).flatten ++ lastB ∧
      (∀ p ∈ bodies, BodyBeat c n p.1 (c.channelW.map (fun _ => chNum ch)) p.2) ∧
      LastBeat c n lastB (c.channelW.map (fun _ => chNum ch)) last := by
  induction k with
  | zero => intro first pkt L hne hl; exact absurd (List.eq_nil_of_length_eq_zero (by omega)) hne
  | succ k ih =>
    intro first pkt L hne hl hL
    have hpos : 0 < pkt.length := List.length_pos_iff.2 hne
    by_cases hlen : pkt.length ≤ n
    · rw [beatsFrom_small c n hb.pos first pkt (chNum ch) hne hlen] at hL
      cases L with
      | nil => simp at hL
      | cons o L =>
        simp only [List.map_cons, List.cons.injEq, List.map_eq_nil_iff] at hL
        obtain ⟨hL, rfl⟩ := hL
        have heop := congrArg Beat.eop hL
        have hdata := congrArg Beat.data hL
        have hempty := congrArg Beat.empty hL
        have hch := congrArg Beat.channel hL
        have hdata' : o.data = wordBits c.highFirst n pkt := hdata
        rw [comesBack_small _ n j hb.pos pkt hne hlen]
        refine ⟨[], if c.useEmpty then pkt.take (n - min n ((n - pkt.length) * j)) else pkt ++ List.replicate (n - pkt.length) 0, o, rfl, by simp, by simp, ?_⟩
        cases hu : c.useEmpty with
        | true =>
          obtain ⟨w, hw, hw2⟩ := hb.empty hu
          simp only [pkStream, hu, if_true, Option.some.injEq, hw, Option.getD_some] at hempty
          simp only [if_true]
          have hmul : n - pkt.length ≤ (n - pkt.length) * j := Nat.le_mul_of_pos_right _ hj0
          have hkl : (pkt.take (n - min n ((n - pkt.length) * j))).length = n - min n ((n - pkt.length) * j) := by
            rw [List.length_take]; omega
          refine ⟨heop, by omega, ?_, ?_, payload_channel c n hb ch hc o hch⟩
          · rw [hdata', wordBits, hkl]
            generalize n - min n ((n - pkt.length) * j) = m at hkl ⊢
            have hml : m ≤ pkt.length := by rw [List.length_take] at hkl; omega
            cases c.highFirst with
            | true =>
              refine ⟨joinBytes (pkt.drop m ++ List.replicate (n - pkt.length) 0), ?_, ?_⟩
              · rw [joinBytes_length]; simp; omega
              · simp only [if_true]
                rw [← joinBytes_append, ← List.append_assoc, List.take_append_drop]
            | false =>
              refine ⟨joinBytes (List.replicate (n - pkt.length) 0 ++ (pkt.drop m).reverse), ?_, ?_⟩
              · rw [joinBytes_length]; simp; omega
              · simp only [Bool.false_eq_true, if_false]
                rw [← joinBytes_append, List.append_assoc, ← List.reverse_append, List.take_append_drop]
          · simp only [hu, if_true]
            refine ⟨n - pkt.length, by rw [hempty]; exact toUnsigned_natToBits _ _ (by omega), ?_⟩
            rw [hkl, hj, ← Nat.mul_assoc, Nat.mul_right_comm]
            omega
        | false =>
          simp only [Bool.false_eq_true, if_false]
          have hkl : (pkt ++ List.replicate (n - pkt.length) (0 : Byte)).length = n := by simp; omega
          refine ⟨heop, by omega, ⟨[], by simp; omega, ?_⟩, by simp only [hu, Bool.false_eq_true, if_false]; exact hkl, payload_channel c n hb ch hc o hch⟩
          rw [hdata', wordBits]
          cases c.highFirst <;> simp
    · rw [beatsFrom_big c n hb.pos first pkt (chNum ch) (by omega)] at hL
      cases L with
      | nil => simp at hL
      | cons o L =>
        simp only [List.map_cons, List.cons.injEq] at hL
        obtain ⟨hL, hL2⟩ := hL
        have heop := congrArg Beat.eop hL
        have hdata := congrArg Beat.data hL
        have hch := congrArg Beat.channel hL
        have hdl : (pkt.drop n).length = pkt.length - n := List.length_drop
        have hd : pkt.drop n ≠ [] := by
          intro h; rw [h] at hdl; simp at hdl; omega
        obtain ⟨bodies, lastB, last, h1, h2, h3, h4⟩ := ih false (pkt.drop n) L hd (by rw [hdl]; have := hb.pos; omega) hL2
        refine ⟨(pkt.take n, o) :: bodies, lastB, last, by simp [h1], ?_, ?_, h4⟩
        · rw [comesBack_big _ n j hb.pos pkt (by omega)]
          simp only [List.map_cons, List.flatten_cons, List.append_assoc, ← h2]
        · intro p hp
          rcases List.mem_cons.1 hp with rfl | hp
          · refine ⟨?_, ?_, hdata, payload_channel c n hb ch hc o hch⟩
            · have heop' : o.eop = .zero := heop
              simp [heop']
            · simp; omega
          · exact h3 p hp

theorem packetOn_of_beats (c : PkCfg) (n : Nat) (hb : ByteBus c n) (ch : Option Int) (hc : ChannelOk c ch) (pkt back : Bytes)
    (L : List PkOut) (hL : L.map (pkStream c).payload = beatsOf c n pkt (chNum ch))
    (hshape : ∃ (bodies : List (Bytes × PkOut)) (lastB : Bytes) (last : PkOut),
      L = bodies.map Prod.snd ++ [last] ∧ back = (bodies.map Prod.fst).flatten ++ lastB ∧
      (∀ p ∈ bodies, BodyBeat c n p.1 (c.channelW.map (fun _ => chNum ch)) p.2) ∧
      LastBeat c n lastB (c.channelW.map (fun _ => chNum ch)) last) :
    PacketOn c n back (c.channelW.map (fun _ => chNum ch)) L where
  shape := hshape
  sop := by
    intro j o hj
    have h1 : (L.map (pkStream c).payload)[j]? = some ((pkStream c).payload o) := by simp [hj]
    rw [hL] at h1
    simp only [beatsOf, List.getElem?_map] at h1
    rw [Option.map_eq_some_iff] at h1
    obtain ⟨j', h2, h3⟩ := h1
    rw [List.getElem?_eq_some_iff] at h2
    obtain ⟨h4, h5⟩ := h2
    simp only [List.getElem_range] at h5
    subst h5
    have : o.sop = Logic.ofBool (j == 0) := (congrArg Beat.sop h3).symm
    rw [this]
    cases j <;> simp [Logic.ofBool]
  range := by
    intro x hx
    cases hw : c.channelW with
    | none => rw [hw] at hx; cases hx
    | some w =>
      rw [hw] at hx
      cases hx
      exact (chNum_lt c n hb ch hc w hw).1
  none := by intro h; rw [h]; rfl

/-- the pins for a beat -/
def ofBeat (b : Beat) : PkOut := ⟨.one, b.sop, b.eop, b.data, b.empty.getD [], b.channel.getD []⟩

theorem payload_ofBeat (c : PkCfg) (n : Nat) (pkt : Bytes) (ch : Nat) (b : Beat) (h : b ∈ beatsOf c n pkt ch) :
    (pkStream c).payload (ofBeat b) = b := by
  unfold beatsOf at h
  obtain ⟨j, -, rfl⟩ := List.mem_map.1 h
  simp only [pkStream, ofBeat]
  congr 1
  · cases c.useEmpty <;> simp
  · cases c.channelW <;> simp

/-- splitting a list along a concatenation -/
theorem split_flatMap {α β γ : Type} (f : α → β) (g : γ → List β) (items : List γ) : ∀ L : List α, L.map f = items.flatMap g →
    ∃ ps : List (γ × List α), ps.map Prod.fst = items ∧ L = ps.flatMap Prod.snd ∧ ∀ p ∈ ps, p.2.map f = g p.1 := by
  induction items with
  | nil => intro L h; simp at h; exact ⟨[], rfl, by simp [h], by simp⟩
  | cons x r ih =>
    intro L h
    rw [List.flatMap_cons] at h
    obtain ⟨a, b, rfl, ha, hb⟩ := List.map_eq_append_iff.1 h
    obtain ⟨ps, h1, h2, h3⟩ := ih b hb
    refine ⟨(x, a) :: ps, by simp [h1], by simp [h2], ?_⟩
    intro p hp
    rcases List.mem_cons.1 hp with rfl | hp
    · exact ha
    · exact h3 p hp

theorem beatsIn_taken (c : PkCfg) (t : List (PkOut × PkIn)) (hr : ∀ r ∈ t, inReset r.2.resetN r.2.reset = .ok false) :
    (beatsIn c t).map (pkStream c).payload = (pkStream c).taken t := by
  induction t with
  | nil => rfl
  | cons r t ih =>
    have h1 := hr r (by simp)
    have h2 := ih (fun q hq => hr q (by simp [hq]))
    unfold beatsIn Stream.taken at *
    rcases Bool.eq_false_or_eq_true ((pkStream c).xfer r) with h | h
    · have : eventAt c r = .beat r.1 := by simp [eventAt, h1, h]
      rw [List.filterMap_cons_some (b := r.1) (by rw [this]; rfl), List.map_cons, h2, List.filter_cons_of_pos h, List.map_cons]
    · have : eventAt c r = .idle := by simp [eventAt, h1, h]
      rw [List.filterMap_cons_none (by rw [this]; rfl), h2, List.filter_cons_of_neg (by simp [h])]

/-- any trace whose beats are an initial part of the driver's beats; `back` is what becomes of a packet -/
theorem pkMonitor_driver_back (c : PkCfg) (n : Nat) (hb : ByteBus c n) (items : List PkItem) (back : Bytes → Bytes)
    (hi : ∀ p ∈ items, ∀ L : List PkOut, L.map (pkStream c).payload = beatsOf c n p.pkt (chNum p.channel) →
      PacketOn c n (back p.pkt) (c.channelW.map (fun _ => chNum p.channel)) L)
    (t : List (PkOut × PkIn)) (hr : ∀ r ∈ t, inReset r.2.resetN r.2.reset = .ok false)
    (hnt : NoTimeout c t) (k : Nat)
    (ht : (pkStream c).taken t = (items.flatMap (fun p => beatsOf c n p.pkt (chNum p.channel))).take k) :
    (∃ st, pkMonitor c t {} = ((items.map (fun p => reportOf c (back p.pkt) (c.channelW.map (fun _ => chNum p.channel)))).take
      (ended (beatsIn c t)), .ok st)) ∧
    ((items.flatMap (fun p => beatsOf c n p.pkt (chNum p.channel))).length ≤ k → ended (beatsIn c t) = items.length) := by
  let all := items.flatMap (fun p => beatsOf c n p.pkt (chNum p.channel))
  have hL : (beatsIn c t ++ (all.drop k).map ofBeat).map (pkStream c).payload = all := by
    rw [List.map_append, beatsIn_taken c t hr, ht, List.map_map]
    have : (all.drop k).map ((pkStream c).payload ∘ ofBeat) = all.drop k := by
      conv_rhs => rw [← List.map_id (all.drop k)]
      apply List.map_congr_left
      intro b hbm
      obtain ⟨p, -, hp⟩ := List.mem_flatMap.1 (List.mem_of_mem_drop hbm)
      exact payload_ofBeat c n _ _ b hp
    rw [this]
    exact List.take_append_drop k all
  obtain ⟨ps, h1, h2, h3⟩ := split_flatMap _ _ _ _ hL
  have hps : ∀ p ∈ ps.map (fun q => (back q.1.pkt, c.channelW.map (fun _ => chNum q.1.channel), q.2)), PacketOn c n p.1 p.2.1 p.2.2 := by
    intro p hp
    obtain ⟨q, hq, rfl⟩ := List.mem_map.1 hp
    exact hi q.1 (by rw [← h1]; exact List.mem_map_of_mem hq) q.2 (h3 q hq)
  have h4 := pkMonitor_packets c n hb.pos _ hps t (fun r hr' => ⟨false, hr r hr'⟩) hnt (by
      refine ⟨(all.drop k).map ofBeat, ?_⟩
      rw [h2, List.flatMap_map])
  obtain ⟨st, h5⟩ := h4
  refine ⟨⟨st, ?_⟩, ?_⟩
  · rw [h5, ← h1, List.map_map, List.map_map]
    rfl
  · intro hk
    have h6 := ended_packets c n _ hps
    rw [List.flatMap_map] at h6
    have h7 : all.drop k = [] := List.drop_eq_nil_of_le hk
    rw [h7, List.map_nil, List.append_nil] at h2
    rw [h2, ← h1, List.length_map]
    simpa using h6

theorem pkMonitor_driver (c : PkCfg) (n : Nat) (hb : ByteBus c n) (items : List PkItem)
    (hi : ∀ p ∈ items, p.pkt ≠ [] ∧ ChannelOk c p.channel ∧ (c.bitsPerSymbol = 8 ∨ n ∣ p.pkt.length))
    (t : List (PkOut × PkIn)) (hr : ∀ r ∈ t, inReset r.2.resetN r.2.reset = .ok false)
    (hnt : NoTimeout c t) (k : Nat)
    (ht : (pkStream c).taken t = (items.flatMap (fun p => beatsOf c n p.pkt (chNum p.channel))).take k) :
    (∃ st, pkMonitor c t {} = ((items.map (fun p => reportOf c p.pkt (c.channelW.map (fun _ => chNum p.channel)))).take
      (ended (beatsIn c t)), .ok st)) ∧
    ((items.flatMap (fun p => beatsOf c n p.pkt (chNum p.channel))).length ≤ k → ended (beatsIn c t) = items.length) :=
  pkMonitor_driver_back c n hb items id (fun p hp L hL => packetOn_of_beats c n hb p.channel (hi p hp).2.1 p.pkt p.pkt L hL
    (packet_shape c n hb p.channel (hi p hp).2.1 _ true p.pkt L (hi p hp).1 (Nat.le_refl _) (hi p hp).2.2 (by rw [hL, beatsOf_eq]))) t hr hnt k ht

end CocotbBus
