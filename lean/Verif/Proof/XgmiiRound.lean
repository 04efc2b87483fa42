import Verif.Proof.XgmiiMonitor

namespace CocotbBus
open Coro Spec

theorem layer1_eq (crc : Bytes → Nat) (p : Bytes) : layer1 crc p = preambleSfd ++ padded p ++ natToBytesLE 4 (crc (padded p) % 2 ^ 32) := by
  unfold layer1 padded
  by_cases h : p.length < 60
  · simp only [h, if_true]
  · rw [if_neg h, show 60 - p.length = 0 by omega, List.replicate_zero, List.append_nil]

theorem natToBytesLE_len (k n : Nat) : (natToBytesLE k n).length = k := by
  induction k generalizing n with
  | zero => rfl
  | succ k ih => simp [natToBytesLE, ih]

theorem padded_length (p : Bytes) : (padded p).length = max p.length 60 := by
  unfold padded; simp; omega

theorem layer1_length (crc : Bytes → Nat) (p : Bytes) : (layer1 crc p).length = max p.length 60 + 11 := by
  rw [layer1_eq]
  simp only [List.length_append, natToBytesLE_len, padded_length]
  have : preambleSfd.length = 7 := rfl
  omega

theorem layer1_frame (crc : Bytes → Nat) (p : Bytes) : FrameEvents crc (layer1 crc p) xgTerminate [.recv (padded p)] := by
  rw [layer1_eq]
  have hl := padded_length p
  have := FrameEvents.good (crc := crc) (padded p) (natToBytesLE 4 (crc (padded p) % 2 ^ 32)) (natToBytesLE_len _ _)
    (by intro h; rw [h] at hl; simp at hl; omega) [] (by
      have : ¬ (padded p).length < 60 := by omega
      simp [this])
  exact this

theorem tail_ends {n : Nat} {pkt : Bytes} {ws : List (List Lane)} (h : TailWords n pkt ws) (rest : List (List Lane)) : EndsWith (ws ++ rest) pkt xgTerminate rest := by
  induction h with
  | last pkt h => exact .here pkt xgTerminate _ rest
  | more pkt ws h hw ih =>
    have := EndsWith.more (pkt.take n) (pkt.drop n) xgTerminate (ws ++ rest) rest ih
    rw [List.take_append_drop] at this
    exact this

theorem tail_lens {n : Nat} {pkt : Bytes} {ws : List (List Lane)} (h : TailWords n pkt ws) : ∀ w ∈ ws, w.length = n := by
  induction h with
  | last pkt h => intro w hw; simp at hw; subst hw; simp; omega
  | more pkt ws h hw ih =>
    intro w hw
    rcases List.mem_cons.1 hw with rfl | hw
    · simp; omega
    · exact ih w hw

theorem idle_not_opens (n : Nat) (l : List Lane) : ¬ Opens n (List.replicate n (xgIdle, true)) l := by
  intro h
  have hmem : ((xgStart, true) : Lane) ∈ List.replicate n ((xgIdle, true) : Lane) := by
    generalize List.replicate n ((xgIdle, true) : Lane) = x at h
    cases h with
    | lane0 => simp
    | lane4 a b hn ha h0 => simp
  have := List.eq_of_mem_replicate hmem
  exact absurd this (by decide)

/-- a frame of the driver, and what follows, is described by a report of the packet -/
theorem frame_scan (n : Nat) (crc : Bytes → Nat) (p : Bytes) (sync : Bool) {ws : List (List Lane)} (hw : TailWords n ((layer1 crc p).drop (n - 1)) ws)
    {rest : List (List Lane)} {ev : List XgEvent} (hs : Scan n crc rest ev) :
    Scan n crc (((if sync then [List.replicate n (xgIdle, true)] else []) ++ frameWords n (layer1 crc p) ws) ++ rest) (.recv (padded p) :: ev) := by
  have hidle : Scan n crc (List.replicate n (xgIdle, true) :: rest) ev := .skip _ _ _ (idle_not_opens n) hs
  have hframe : Scan n crc (frameWords n (layer1 crc p) ws ++ rest) (.recv (padded p) :: ev) := by
    have he := EndsWith.more ((layer1 crc p).take (n - 1)) _ xgTerminate _ _ (tail_ends hw (List.replicate n (xgIdle, true) :: rest))
    rw [List.take_append_drop] at he
    have := Scan.frame _ _ _ _ _ _ _ _ (Opens.lane0 (n := n) (((layer1 crc p).take (n - 1)).map dataLane)) he (layer1_frame crc p) hidle
    unfold frameWords
    simpa using this
  cases sync with
  | false => exact hframe
  | true => exact .skip _ _ _ (idle_not_opens n) hframe

theorem frame_lens (n : Nat) (hn : 0 < n) (crc : Bytes → Nat) (p : Bytes) (sync : Bool) {ws : List (List Lane)} (hw : TailWords n ((layer1 crc p).drop (n - 1)) ws)
    (hl : n - 1 ≤ (layer1 crc p).length) :
    ∀ w ∈ (if sync then [List.replicate n ((xgIdle, true) : Lane)] else []) ++ frameWords n (layer1 crc p) ws, w.length = n := by
  intro w h
  rcases List.mem_append.1 h with h | h
  · cases sync with
    | false => cases h
    | true => simp at h; subst h; simp
  · unfold frameWords at h
    simp only [List.cons_append, List.mem_cons, List.mem_append, List.not_mem_nil, or_false] at h
    rcases h with rfl | h | rfl
    · simp; omega
    · exact tail_lens hw w h
    · simp

/-- all packets -/
theorem sendAll_emits (c : XgCfg) (hc : XgOk c) (crc : Bytes → Nat) (items : List (Bytes × Bool)) :
    (∀ it ∈ items, c.nbytes ≤ max it.1.length 60 + 12) →
    ∃ ws, (∀ w ∈ ws, w.length = c.nbytes) ∧ Scan c.nbytes crc ws (items.map fun it => .recv (padded it.1)) ∧
      ∀ s, XgReady c s → Emits c (xgSendAll c crc items s) ws (fun _ s' => XgReady c s') := by
  induction items with
  | nil =>
    intro _
    exact ⟨[], (by intro w hw; cases hw), .nil, fun s hs => Emits.silent hs⟩
  | cons it items ih =>
    intro hl
    obtain ⟨p, sync⟩ := it
    obtain ⟨ws2, h1, h2, h3⟩ := ih (fun it h => hl it (by simp [h]))
    have hlen : c.nbytes - 1 ≤ (layer1 crc p).length := by
      have := hl (p, sync) (by simp)
      simp only [] at this
      rw [layer1_length]; omega
    obtain ⟨ws, hw⟩ := tailWords_exists c.nbytes hc.pos _ ((layer1 crc p).drop (c.nbytes - 1)) (Nat.le_refl _)
    refine ⟨_ ++ ws2, ?_, frame_scan c.nbytes crc p sync hw h2, fun s hs => ?_⟩
    · intro w h
      rcases List.mem_append.1 h with h | h
      · exact frame_lens c.nbytes hc.pos crc p sync hw hlen w h
      · exact h1 w h
    · exact Emits.bind (xgSend_emits c hc crc p sync hlen hw s hs) (fun _ s' h => h3 s' h)

end CocotbBus
