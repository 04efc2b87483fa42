import Verif.Proof.XgLine
import Verif.Props.Xgmii

/-! # C109: frames that are damaged on the way are noticed by the XGMII monitor -/

namespace CocotbBus
open Coro Spec

/-- **C109**: packets are sent through the XGMII driver (with the missing import added, see C70), the words arrive at the monitor with data
bytes changed in any way. The monitor sees one frame per packet; what it does falls into one part per frame: a frame that is not damaged is
reported as sent and without error. For a frame that is damaged in at most 32 consecutive bits, or (if it is shorter than 512 MiB) in two
bits, an error is logged. -/
theorem C109_noticed_partial (c : XgCfg) (hc : c.imported = true) (hw : c.width = c.nbytes * 9) (hn : 0 < c.nbytes)
    (items : List (Bytes × Bool)) (hl : ∀ it ∈ items, c.nbytes ≤ max it.1.length 60 + 12) (s s' : Sim Unit XgOut) (hp : s.phase ≠ .ro)
    (h0 : s.out.integer = 0) (hi : IdleWord c s.out.signal) (hok : (xgSendAll c crc32 items s).2 = .ok () s')
    (sent got : List (List Lane)) (hsent : (xgSendAll c crc32 items s).1.map (fun r => xgLanes c r.1.signal) = sent.map .ok)
    (vs : List LogicArray) (hgot : vs.map (xgLanes c) = got.map .ok) (hline : OnLine sent got) :
    frames sent = items.map (fun it => layer1 crc32 it.1) ∧ (frames got).length = items.length ∧
    ∃ parts : List (List XgEvent), (xgMonitor c crc32 vs none).1 = parts.flatten ∧ (∃ st, (xgMonitor c crc32 vs none).2 = .ok st) ∧
      parts.length = items.length ∧
      ∀ (k : Nat) it d ev, items[k]? = some it → (frames got)[k]? = some d → parts[k]? = some ev →
        d.length = (layer1 crc32 it.1).length ∧
        (d = layer1 crc32 it.1 → ev = [.recv (padded it.1)]) ∧
        (Burst 32 (layer1 crc32 it.1) d → Noticed ev) ∧
        (TwoBits (layer1 crc32 it.1) d → d.length < 2 ^ 29 → Noticed ev) := by
  obtain ⟨ws, h1, h2, h3⟩ := sendAll_sent c ⟨hc, hw, hn⟩ crc32 items hl
  have hws : sent = ws := by
    rcases h3 s ⟨⟨hp, part_nil_of_zero c s h0⟩, hi⟩ with ⟨t, a, s2, e1, e2, e3⟩ | ⟨t, s2, ws', e1, e2, e3⟩
    · rw [e1] at hsent
      have : sent.map (Except.ok (ε := PyErr)) = ws.map Except.ok := hsent.symm.trans e2
      exact List.map_injective_iff.2 (fun a b h => Except.ok.inj h) this
    · rw [e1] at hok; cases hok
  subst hws
  have hself : OnLine sent sent := by
    refine List.forall₂_same.2 (fun w _ => List.forall₂_same.2 (fun x _ => .inl rfl))
  refine ⟨?_, ?_⟩
  · exact sent_frames c.nbytes crc32 h2
  · obtain ⟨fes, i1, i2, i3, i4⟩ := line_scan c.nbytes crc32 h2 got hline
    obtain ⟨j1, j2⟩ := scan_sound c crc32 hn i1 (onLine_lens hline _ h1)
    refine ⟨i3, fes, by rw [xgMonitor_lanes c crc32 vs got none hgot]; exact j1, by rw [xgMonitor_lanes c crc32 vs got none hgot]; exact j2, i4, ?_⟩
    intro k it d ev hk hd hev
    have hz : ((frames got).zip fes)[k]? = some (d, ev) := by
      rw [List.getElem?_zip_eq_some]
      exact ⟨hd, hev⟩
    obtain ⟨k1, k2⟩ := (List.forall₂_iff_get.1 i2).2 k (List.getElem?_eq_some_iff.1 hz).1 (List.getElem?_eq_some_iff.1 hk).1
    simp only [List.get_eq_getElem, (List.getElem?_eq_some_iff.1 hz).2, (List.getElem?_eq_some_iff.1 hk).2] at k1 k2
    refine ⟨k1, ?_, fun hb => burst_noticed _ _ 32 (Nat.le_refl _) _ k1 k2 hb, fun hb hs => two_noticed _ _ hs _ k1 k2 hb⟩
    intro he
    rw [he] at k2
    rw [frameEvents_eq _ _ _ _ k2, ← frameEvents_eq _ _ _ _ (layer1_frame crc32 it.1)]

/-- the check value of CRC-32 -/
example : crc32 [0x31, 0x32, 0x33, 0x34, 0x35, 0x36, 0x37, 0x38, 0x39] = 0xCBF43926 := by decide +kernel

/-! ### Examples -/

def exLinePkts : List (Bytes × Bool) := [([1, 2, 3], true), (List.replicate 62 9, false)]
def exLineSent : List (List Lane) := ((xgSendAll exXg crc32 exLinePkts (exXgSim 60)).1).map fun r => ((xgLanes exXg r.1.signal).toOption).getD []

/-- change the data bytes, counted over all frames -/
def hit (f : Nat → Byte) : Nat → List Lane → List Lane
  | _, [] => []
  | k, (b, ctrl) :: l => if ctrl then (b, ctrl) :: hit f k l else (b ^^^ f k, ctrl) :: hit f (k + 1) l

/-- the same for words of four lanes -/
def hitWords (f : Nat → Byte) (ws : List (List Lane)) : List (List Lane) :=
  let l := hit f 0 ws.flatten
  (List.range ws.length).map fun i => (l.drop (4 * i)).take 4

def onLineB (sent got : List (List Lane)) : Bool :=
  sent.length == got.length && (sent.zip got).all fun (u, v) => u.length == v.length && (u.zip v).all fun (a, b) => a == b || (!a.2 && !b.2)

theorem onLine_of (sent got : List (List Lane)) (h : onLineB sent got = true) : OnLine sent got := by
  unfold onLineB at h
  simp only [Bool.and_eq_true, beq_iff_eq, List.all_eq_true] at h
  refine List.forall₂_iff_zip.2 ⟨h.1, fun {u v} huv => ?_⟩
  have h2 := h.2 (u, v) huv
  refine List.forall₂_iff_zip.2 ⟨h2.1, fun {a b} hab => ?_⟩
  have h3 := h2.2 (a, b) hab
  simpa using h3

def burstB (i k : Nat) (a b : Bytes) : Bool :=
  a != b && a.length == b.length && (List.range (8 * a.length)).all fun j => (lineBits a)[j]? == (lineBits b)[j]? || (decide (i ≤ j) && decide (j < i + k))

theorem burst_of (i k : Nat) (a b : Bytes) (h : burstB i k a b = true) : Burst k a b := by
  unfold burstB at h
  simp only [Bool.and_eq_true, bne_iff_ne, beq_iff_eq, List.all_eq_true, List.mem_range, Bool.or_eq_true, decide_eq_true_eq] at h
  refine ⟨h.1.1, i, fun j hj => ?_⟩
  by_cases hlt : j < 8 * a.length
  · exact (h.2 j hlt).resolve_left hj
  · exfalso
    apply hj
    rw [List.getElem?_eq_none (by rw [lineBits_length]; omega), List.getElem?_eq_none (by rw [lineBits_length, ← h.1.2]; omega)]

/-- two packets; the first byte of the second loses its highest bit, and two more bits within 32 are changed -/
def exHit : Nat → Byte
  | 78 => 0x80
  | 79 => 0x01
  | 82 => 0x40
  | _ => 0

-- the hypotheses of the theorem are met, and the error is noticed
example : let got := hitWords exHit exLineSent
    OnLine exLineSent got ∧ Burst 32 (layer1 crc32 (List.replicate 62 9)) ((frames got).getD 1 []) ∧ (frames got)[0]? = some (layer1 crc32 [1, 2, 3]) ∧
    xgMonitor exXg crc32 (got.map exWord) none = ([.recv (padded [1, 2, 3]), .badCrc, .recv ([137, 8, 9, 9, 73] ++ List.replicate 57 9)], .ok none) := by
  refine ⟨onLine_of _ _ (by decide +kernel), burst_of 63 32 _ _ (by decide +kernel), by decide +kernel, by decide +kernel⟩

/-- damage in two bits of the first frame, far apart -/
def exHitTwo : Nat → Byte
  | 8 => 0x10
  | 70 => 0x01
  | _ => 0

example : let d := (frames (hitWords exHitTwo exLineSent)).getD 0 []
    TwoBits (layer1 crc32 [1, 2, 3]) d ∧ d.length < 2 ^ 29 ∧
    (xgMonitor exXg crc32 ((hitWords exHitTwo exLineSent).map exWord) none).1 = [.badCrc, .recv ([1, 18, 3] ++ List.replicate 57 0), .recv (List.replicate 62 9)] := by
  refine ⟨⟨68, 560, by decide, fun n => ?_⟩, by decide +kernel, by decide +kernel⟩
  by_cases hlt : n < 568
  · have h : (List.range 568).all (fun n => decide ((lineBits (layer1 crc32 [1, 2, 3]))[n]? ≠ (lineBits ((frames (hitWords exHitTwo exLineSent)).getD 0 []))[n]? ↔ (n = 68 ∨ n = 560))) = true := by
      decide +kernel
    have := List.all_eq_true.1 h n (List.mem_range.2 hlt)
    exact of_decide_eq_true this
  · have h1 : (layer1 crc32 [1, 2, 3]).length = 71 := by decide +kernel
    have h2 : ((frames (hitWords exHitTwo exLineSent)).getD 0 []).length = 71 := by decide +kernel
    rw [List.getElem?_eq_none (by rw [lineBits_length, h1]; omega), List.getElem?_eq_none (by rw [lineBits_length, h2]; omega)]
    simp only [ne_eq, not_true_eq_false, false_iff]
    omega

/-! ### More damage may go unnoticed -/

/-- the generator polynomial, 33 bits -/
def exHitPoly : Nat → Byte
  | 7 => 0x41
  | 8 => 0x06
  | 9 => 0x71
  | 10 => 0xDB
  | 11 => 0x01
  | _ => 0

/-- The bound is sharp: there is damage in 33 consecutive bits that is not noticed, and a packet is reported that was not sent. -/
theorem C109_limit : ∃ (items : List (Bytes × Bool)) (s s' : Sim Unit XgOut) (sent got : List (List Lane)) (vs : List LogicArray) (p d q : Bytes),
    s.phase ≠ .ro ∧ s.out.integer = 0 ∧ IdleWord exXg s.out.signal ∧ items = [(p, true)] ∧ (xgSendAll exXg crc32 items s).2 = .ok () s' ∧
    (xgSendAll exXg crc32 items s).1.map (fun r => xgLanes exXg r.1.signal) = sent.map .ok ∧ vs.map (xgLanes exXg) = got.map .ok ∧ OnLine sent got ∧
    frames got = [d] ∧ Burst 33 (layer1 crc32 p) d ∧ (xgMonitor exXg crc32 vs none).1 = [.recv q] ∧ q ≠ padded p := by
  refine ⟨[([1, 2, 3], true)], exXgSim 30, (xgSendAll exXg crc32 [([1, 2, 3], true)] (exXgSim 30)).2.sim,
    ((xgSendAll exXg crc32 [([1, 2, 3], true)] (exXgSim 30)).1).map (fun r => ((xgLanes exXg r.1.signal).toOption).getD []),
    hitWords exHitPoly (((xgSendAll exXg crc32 [([1, 2, 3], true)] (exXgSim 30)).1).map (fun r => ((xgLanes exXg r.1.signal).toOption).getD [])),
    (hitWords exHitPoly (((xgSendAll exXg crc32 [([1, 2, 3], true)] (exXgSim 30)).1).map (fun r => ((xgLanes exXg r.1.signal).toOption).getD []))).map exWord,
    [1, 2, 3], preambleSfd ++ [0x40, 4, 0x72, 0xDB, 1] ++ List.replicate 55 0 ++ natToBytesLE 4 (crc32 (padded [1, 2, 3])), [0x40, 4, 0x72, 0xDB, 1] ++ List.replicate 55 0, ?_⟩
  refine ⟨by decide, rfl, by unfold IdleWord; decide +kernel, rfl, by decide +kernel, by decide +kernel, by decide +kernel, onLine_of _ _ (by decide +kernel),
    by decide +kernel, burst_of 56 33 _ _ (by decide +kernel), by decide +kernel, by decide +kernel⟩

end CocotbBus
