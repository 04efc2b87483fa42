import Verif.Proof.PktsReconf
import Verif.Props.AvalonPkts

/-!
C117: a packet monitor whose configuration is changed while it runs.
-/

namespace CocotbBus
open Spec Coro

/-- C117: on every trace in which each beat of a sequence of well-formed packets is laid out as the configuration in force at its edge says, the
monitor reports exactly those packets and raises nothing, whenever and however often the options are changed, between packets or in the middle
of one. -/
theorem C117_decode (c : PkCfg) (n : Nat) (ps : List (Bytes × Option Nat × List (PkCfg × PkOut)))
    (h : ∀ p ∈ ps, PacketWith n p.1 p.2.1 p.2.2) (t : List (PkCfg × (PkOut × PkIn))) (hc : ∀ r ∈ t, SameMonitor c r.1)
    (hr : ∀ r ∈ t, ResetReadable r.2.2) (hnt : NoTimeoutWith c t) (hp : beatsWith t = ps.flatMap (fun p => p.2.2)) :
    ∃ st, pkMonitorDyn t {} = (ps.map (fun p => reportOf c p.1 p.2.1), .ok st) := by
  have hb : ∀ q ∈ beatsWith t, SameMonitor c q.1 := by
    intro q hq
    obtain ⟨r, hr1, hr2⟩ := List.mem_filterMap.1 hq
    obtain ⟨o, -, rfl⟩ := Option.map_eq_some_iff.1 hr2
    exact hc r hr1
  have hcp : ∀ p ∈ ps, ∀ q ∈ p.2.2, SameMonitor c q.1 := fun p hp' q hq => hb q (by rw [hp]; exact List.mem_flatMap.2 ⟨p, hp', hq⟩)
  obtain ⟨eb, h1⟩ := pkBeatsDyn_packets c n ps h hcp false
  obtain ⟨-, k, h3, -⟩ := pkMonitorDyn_of_beats c t hc hr hnt _ _ (by rw [hp]; exact h1)
  exact ⟨_, h3⟩

/-- C117: a trace that stops anywhere in such a sequence: one report for every packet that ended. -/
theorem C117_decode_prefix (c : PkCfg) (n : Nat) (ps : List (Bytes × Option Nat × List (PkCfg × PkOut)))
    (h : ∀ p ∈ ps, PacketWith n p.1 p.2.1 p.2.2) (hcp : ∀ p ∈ ps, ∀ q ∈ p.2.2, SameMonitor c q.1)
    (t : List (PkCfg × (PkOut × PkIn))) (hc : ∀ r ∈ t, SameMonitor c r.1)
    (hr : ∀ r ∈ t, ResetReadable r.2.2) (hnt : NoTimeoutWith c t) (hp : beatsWith t <+: ps.flatMap (fun p => p.2.2)) :
    ∃ st, pkMonitorDyn t {} = ((ps.map (fun p => reportOf c p.1 p.2.1)).take (ended (beatsIn c (t.map Prod.snd))), .ok st) :=
  pkMonitorDyn_packets c n ps h hcp t hc hr hnt hp

/-- C117: if nothing is changed, this is the monitor of the other theorems. -/
theorem C117_constant (c : PkCfg) (t : List (PkOut × PkIn)) : ∀ st : PkState, pkMonitorDyn (t.map (fun r => (c, r))) st = pkMonitor c t st := by
  induction t with
  | nil => intro st; rfl
  | cons r t ih =>
    intro st
    obtain ⟨o, i⟩ := r
    simp only [List.map_cons, pkMonitorDyn, pkMonitor]
    cases pkStep c st o i with
    | error e => rfl
    | ok x => simp only [ih]

/-- C117: an option is never taken into account late or early: the beats before the change are read as before, those after it as from then on. -/
theorem C117_change (c c' : PkCfg) (t u : List (PkOut × PkIn)) (l : List PkReport) (st : PkState) (h : pkMonitor c t {} = (l, .ok st)) :
    pkMonitorDyn (t.map (fun r => (c, r)) ++ u.map (fun r => (c', r))) {} = (l ++ (pkMonitor c' u st).1, (pkMonitor c' u st).2) := by
  rw [← C117_constant c] at h
  revert h
  generalize ({} : PkState) = s0
  intro h
  induction t generalizing s0 l with
  | nil => cases h; simp [C117_constant]
  | cons r t ih =>
    obtain ⟨o, i⟩ := r
    simp only [List.map_cons, List.cons_append, pkMonitorDyn] at h ⊢
    cases hs : pkStep c s0 o i with
    | error e => rw [hs] at h; cases h
    | ok x =>
      obtain ⟨s1, rep⟩ := x
      rw [hs] at h
      simp only [Prod.mk.injEq] at h
      simp only
      rw [ih (pkMonitorDyn (t.map fun r => (c, r)) s1).1 s1 (by rw [← h.2])]
      simp [← h.1]

/-- C117: the byte order at each beat alone decides how that beat is read. A packet of whole words on a bus without a channel, sent in order `hf`,
is reported with the bytes of exactly those words reversed that the monitor handles under the opposite order. -/
theorem C117_order (c : PkCfg) (hch : c.channelW = none) (n : Nat) (hf : Bool) (ws : List (Bytes × PkCfg × PkOut)) (hne : ws ≠ [])
    (hw : ∀ w ∈ ws, WordSent hf n w.1 w.2.2)
    (hsop : ∀ (j : Nat) (w : Bytes × PkCfg × PkOut), ws[j]? = some w → (w.2.2.sop = .one ↔ j = 0))
    (heop : ∀ (j : Nat) (w : Bytes × PkCfg × PkOut), ws[j]? = some w → (w.2.2.eop = .one ↔ j + 1 = ws.length))
    (hempty : ∀ w ∈ ws, w.2.2.eop = .one → w.2.1.useEmpty = true → toUnsigned w.2.2.empty = .ok 0)
    (t : List (PkCfg × (PkOut × PkIn))) (hc : ∀ r ∈ t, SameMonitor c r.1)
    (hr : ∀ r ∈ t, ResetReadable r.2.2) (hnt : NoTimeoutWith c t) (hp : beatsWith t = ws.map Prod.snd) :
    ∃ st, pkMonitorDyn t {} = ([reportOf c (ws.map (fun w => seenAs hf w.2.1.highFirst w.1)).flatten none], .ok st) := by
  have hb : ∀ q ∈ ws, SameMonitor c q.2.1 := by
    intro q hq
    have : q.2 ∈ beatsWith t := by rw [hp]; exact List.mem_map_of_mem hq
    obtain ⟨r, hr1, hr2⟩ := List.mem_filterMap.1 this
    obtain ⟨o, -, hq2⟩ := Option.map_eq_some_iff.1 hr2
    rw [← hq2]
    exact hc r hr1
  have hnone : ∀ q ∈ ws, q.2.1.channelW = none := fun q hq => (hb q hq).channelW.trans hch
  have hlen : ∀ q ∈ ws, (seenAs hf q.2.1.highFirst q.1).length = n := by
    intro q hq
    have := (hw q hq).len
    unfold seenAs
    split <;> simp [this]
  have hdata : ∀ q ∈ ws, q.2.2.data = if q.2.1.highFirst then joinBytes (seenAs hf q.2.1.highFirst q.1)
      else joinBytes (seenAs hf q.2.1.highFirst q.1).reverse := by
    intro q hq
    rw [(hw q hq).data]
    unfold seenAs
    cases q.2.1.highFirst <;> cases hf <;> simp
  obtain ⟨init, last, hil⟩ : ∃ init last, ws = init ++ [last] := ⟨ws.dropLast, ws.getLast hne, (List.dropLast_concat_getLast hne).symm⟩
  have hpk : PacketWith n (ws.map (fun w => seenAs hf w.2.1.highFirst w.1)).flatten none (ws.map Prod.snd) := by
    refine ⟨⟨init.map (fun w => (seenAs hf w.2.1.highFirst w.1, w.2)), seenAs hf last.2.1.highFirst last.1, last.2, ?_, ?_, ?_, ?_⟩, ?_, ?_, ?_⟩
    · rw [hil]; simp
    · rw [hil]; simp [Function.comp_def]
    · intro p hp'
      obtain ⟨w, hw', rfl⟩ := List.mem_map.1 hp'
      have hm : w ∈ ws := by rw [hil]; exact List.mem_append_left _ hw'
      obtain ⟨j, hj⟩ := List.mem_iff_getElem?.1 hw'
      have hj1 : j < init.length := by
        by_contra hcon
        rw [List.getElem?_eq_none (by omega)] at hj
        cases hj
      have hj2 : ws[j]? = some w := by rw [hil, List.getElem?_append_left hj1]; exact hj
      refine ⟨?_, hlen w hm, ?_, ?_⟩
      · intro he
        have := (heop j w hj2).1 he
        rw [hil] at this
        simp at this
        omega
      · rw [hdata w hm, wordBits_full _ _ _ (hlen w hm)]; simp only; split <;> rfl
      · intro w' hw'
        rw [hnone w hm] at hw'
        cases hw'
    · have hm : last ∈ ws := by rw [hil]; simp
      have hl : last.2.2.eop = .one := (heop init.length last (by rw [hil]; simp)).2 (by rw [hil]; simp)
      refine ⟨hl, Nat.le_of_eq (hlen last hm), ⟨[], by simp [hlen last hm], ?_⟩, ?_, ?_⟩
      · rw [hdata last hm]; split <;> simp
      · split
        · rename_i hu
          exact ⟨0, hempty last hm hl hu, by simp [hlen last hm]⟩
        · exact hlen last hm
      · intro w' hw'
        rw [hnone last hm] at hw'
        cases hw'
    · intro j p hj
      rw [List.getElem?_map] at hj
      obtain ⟨w, hw1, rfl⟩ := Option.map_eq_some_iff.1 hj
      exact hsop j w hw1
    · intro p _ x hx; cases hx
    · intro p _ _; rfl
  exact C117_decode c n [(_, none, ws.map Prod.snd)] (by simpa using hpk) t hc hr hnt (by simpa using hp)

/-- the order is changed between the two beats of the second of two packets -/
def exReconf : List (PkCfg × (PkOut × PkIn)) :=
  let hi : PkCfg := { width := 16, hasReady := true, emptyW := some 1, channelW := none, highFirst := true, maxChannel := 0 }
  let lo : PkCfg := { hi with highFirst := false }
  let go : PkIn := { ready := .one, resetN := some [.one] }
  [(hi, ⟨.one, .one, .one, natToBits 16 0x0102, [.zero], []⟩, go), (lo, ⟨.zero, .one, .one, natToBits 16 0, [.zero], []⟩, go),
   (lo, ⟨.one, .one, .zero, natToBits 16 0x0403, [.zero], []⟩, go), (hi, ⟨.one, .zero, .one, natToBits 16 0x0506, [.zero], []⟩, { go with ready := .zero }),
   (hi, ⟨.one, .zero, .one, natToBits 16 0x0506, [.zero], []⟩, go)]

example : (pkMonitorDyn exReconf {}).1 = [⟨[1, 2], none⟩, ⟨[3, 4, 5, 6], none⟩] ∧
    (pkMonitorDyn (exReconf.map fun r => ({ r.1 with highFirst := true }, r.2)) {}).1 = [⟨[1, 2], none⟩, ⟨[4, 3, 5, 6], none⟩] ∧
    NoTimeoutWith { width := 16, hasReady := true, emptyW := some 1, channelW := none, maxChannel := 0 } exReconf := by
  refine ⟨by decide +kernel, by decide +kernel, ?_⟩
  intro a k r b h hk
  have : (k, r) ∈ exReconf := by rw [h]; simp
  exact absurd (by
    simp only [exReconf, List.mem_cons, List.not_mem_nil, or_false, Prod.mk.injEq] at this
    rcases this with h | h | h | h | h <;> rw [h.1]) hk

end CocotbBus
