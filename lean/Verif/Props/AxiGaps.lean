import Verif.Proof.AxiGaps
import Verif.Props.AxiRead

/-! # Properties C55, C56, C57, C60 with latency between the values -/

namespace CocotbBus
open Spec Coro

/-- C55, what the code does with every data latency: the write data channel at every edge of a write, as a function of WREADY. A value stays on the
channel for the `dl` edges before the next one although it was taken. -/
theorem C55_exact (c : AxCfg) (hc : Standard c) (a : Nat) (ha : a < 2 ^ c.addrW) (value : List Nat) (size : Option Int) (burst : AxiBurst)
    (be : List (Option Nat)) (hbe : be ≠ [])
    (al dl : Nat) (sync : Bool) (sz : Nat) (hl : Legal c a value.length size burst sz) (s : Sim AxIn (AddrOut × WOut)) (hs : WriteReady sync s) :
    let t := wTrace (axiWrite c a value size burst be al dl sync s).1
    ∃ beats, axiWriteBeats c.dataBytes sz a burst value be = .ok beats ∧ beats.length = value.length ∧
      offersOf (wStream c) t = offersWithGaps dl none (dl + if sync then 1 else 0) (wReqs c beats) (readiesOf (wStream c) t) ∧
      (wStream c).taken t = takenAt (offersOf (wStream c) t) (readiesOf (wStream c) t) := by
  intro t
  obtain ⟨h1, h2, h3, k, m, hk, hm, hW⟩ := Legal.facts hl hc ha
  obtain ⟨beats, b1, b2, b3⟩ := axiWriteBeats_ok sz m a h2 hm burst value be hbe
  rw [← hW] at b1 b3
  have hv : value ≠ [] := by rintro rfl; simp at h3
  refine ⟨beats, b1, b2, ?_, (takenAt_taken _ _).symm⟩
  have := axiWriteRun_gaps c a value sz burst be al dl sync h1 h2 beats b1 (by rintro rfl; exact hv (List.length_eq_zero_iff.1 b2.symm)) b3
    s hs.1 hs.2.1 hs.2.2
  rw [← axiWrite_legal c hc a value size burst be al dl sync sz hl] at this
  exact this

/-- C55, the part that holds with latency: if the slave is not ready in the gaps, every value is transferred at most once, in order, and when the write has
ended, each exactly once. -/
theorem C55_calm_partial (c : AxCfg) (hc : Standard c) (a : Nat) (ha : a < 2 ^ c.addrW) (value : List Nat) (size : Option Int) (burst : AxiBurst)
    (be : List (Option Nat)) (hbe : be ≠ [])
    (al dl : Nat) (sync : Bool) (sz : Nat) (hl : Legal c a value.length size burst sz) (s : Sim AxIn (AddrOut × WOut)) (hs : WriteReady sync s)
    (hg : ∀ i ∈ s.cur :: s.rest, GoodResp i) :
    let r := axiWrite c a value size burst be al dl sync s
    CalmGaps dl 0 value.length ((readiesOf (wStream c) (wTrace r.1)).drop (dl + if sync then 1 else 0)) →
    ∃ beats, axiWriteBeats c.dataBytes sz a burst value be = .ok beats ∧ (wStream c).taken (wTrace r.1) <+: wReqs c beats ∧
      (result r ≠ none → (wStream c).taken (wTrace r.1) = wReqs c beats) := by
  intro r hcalm
  obtain ⟨beats, b1, b2, b3, b4⟩ := C55_exact c hc a ha value size burst be hbe al dl sync sz hl s hs
  obtain ⟨t1, t2, beats', e1, e2, -, e3⟩ := C55_any_latency_partial c hc a ha value size burst be hbe al dl sync sz hl s hs hg
  have hbb : beats' = beats := by rw [e2] at b1; cases b1; rfl
  subst hbb
  have hlen : (wReqs c beats').length = value.length := by
    have : ∀ l : List (Nat × Nat), (wReqs c l).length = l.length := by
      intro l
      induction l with
      | nil => rfl
      | cons x l ih => simp [wReqs, ih]
    rw [this, b2]
  have hpre : (wStream c).taken (wTrace r.1) <+: wReqs c beats' := by
    rw [b4, b3, takenAt_start]
    exact takenAt_calm _ _ _ _ _ (by rw [hlen]; exact hcalm)
  refine ⟨beats', b1, hpre, fun hres => ?_⟩
  rcases e3 with ⟨-, hn, -⟩ | ⟨-, hst, -, hq, -⟩
  · exact absurd hn hres
  · have ht : (wStream c).taken (wTrace r.1) = (wStream c).taken (wTrace t1) := by
      have : wTrace r.1 = wTrace t1 ++ wTrace t2 := by rw [show r.1 = t1 ++ t2 from e1]; simp [wTrace]
      rw [this, taken_append, taken_none _ (wTrace t2), List.append_nil]
      intro q hq'
      obtain ⟨q', h', rfl⟩ := List.mem_map.1 hq'
      simp [Stream.xfer, (hq q' h').2]
    rw [ht] at hpre ⊢
    exact List.IsPrefix.eq_of_length_le hpre (Stutters.length_le hst)

/-- The slave is not ready in the gaps of a write. -/
def CalmWrite (c : AxCfg) (dl : Nat) (sync : Bool) (n : Nat) (t : List ((AddrOut × WOut) × AxIn)) : Prop :=
  CalmGaps dl 0 n ((readiesOf (wStream c) (wTrace t)).drop (dl + if sync then 1 else 0))

/-- C56 with latency: if the slave is not ready in the gaps, a memory that has watched the bus contains what it should. -/
theorem C56_calm (c : AxCfg) (hc : Standard c) (hfull : c.full = true) (a : Nat) (ha : a < 2 ^ c.addrW) (value : List Nat) (size : Option Int) (be : List (Option Nat)) (hbe : be ≠ [])
    (al dl : Nat) (sync : Bool) (sz : Nat) (hl : Legal c a value.length size .incr sz) (s : Sim AxIn (AddrOut × WOut)) (hs : WriteReady sync s)
    (hg : ∀ i ∈ s.cur :: s.rest, GoodResp i)
    (hok : result (axiWrite c a value size .incr be al dl sync s) = some (.ok ()))
    (hcalm : CalmWrite c dl sync value.length (axiWrite c a value size .incr be al dl sync s).1) (mem : Nat → Byte) (b : Nat) :
    busStore c (axiWrite c a value size .incr be al dl sync s).1 mem b =
      if a ≤ b ∧ b < a + value.length * sz - a % sz ∧ axiEnabled be ((b - a) / sz) ((b - a) % sz) = true
      then byteOf (value.getD ((b - a) / sz) 0) ((b - a) % sz) else mem b := by
  obtain ⟨h1, h2, h3, k, m, hk, hm, hW⟩ := Legal.facts hl hc ha
  obtain ⟨acc, c1, c2, _⟩ := C54_write c hc a ha value size .incr be al dl sync sz hl s hs
  obtain ⟨beats, d1, -, d3⟩ := C55_calm_partial c hc a ha value size .incr be hbe al dl sync sz hl s hs hg hcalm
  rw [c2 _ hok] at c1
  obtain ⟨beats', e1, e2, e3, e4⟩ := axiWrite_incr sz m a h2 hm value be hbe
  rw [← hW] at e1 e3 e4
  have : beats' = beats := by rw [d1] at e1; injection e1 with e1; exact e1.symm
  subst this
  rw [busStore_eq c a value.length sz k .incr h1 hk h3 (by simp [hfull]) beats' e3 _ (Stream.Once.taken_eq c1) (d3 (by rw [hok]; simp))]
  exact e4 mem b

/-- C57 with latency, likewise. -/
theorem C57_calm (c : AxCfg) (hc : Standard c) (a : Nat) (ha : a < 2 ^ c.addrW) (value : List Nat) (size : Option Int) (be : List (Option Nat)) (hbe : be ≠ [])
    (al dl : Nat) (sync : Bool) (sz : Nat) (hl : Legal c a value.length size .fixed sz) (s : Sim AxIn (AddrOut × WOut)) (hs : WriteReady sync s)
    (hg : ∀ i ∈ s.cur :: s.rest, GoodResp i)
    (hok : result (axiWrite c a value size .fixed be al dl sync s) = some (.ok ()))
    (hcalm : CalmWrite c dl sync value.length (axiWrite c a value size .fixed be al dl sync s).1) :
    let ws := (wStream c).taken (wTrace (axiWrite c a value size .fixed be al dl sync s).1)
    (awStream c).taken (awTrace (axiWrite c a value size .fixed be al dl sync s).1) = [addrReq c a value.length sz .fixed] ∧ ws.length = value.length ∧
    ∀ (i : Nat) w, ws[i]? = some w → ∀ mem b, axiStore c.dataBytes (beatAddr sz .fixed a value.length i) (bitsToNat w.data, bitsToNat w.strb) mem b =
      if a ≤ b ∧ b < a + sz - a % sz ∧ axiEnabled be i (b - a) = true then byteOf (value.getD i 0) (b - a) else mem b := by
  intro ws
  obtain ⟨h1, h2, h3, k, m, hk, hm, hW⟩ := Legal.facts hl hc ha
  obtain ⟨acc, c1, c2, _⟩ := C54_write c hc a ha value size .fixed be al dl sync sz hl s hs
  obtain ⟨beats, d1, -, d3⟩ := C55_calm_partial c hc a ha value size .fixed be hbe al dl sync sz hl s hs hg hcalm
  rw [c2 _ hok] at c1
  obtain ⟨beats', e1, e2, e3, e4⟩ := axiWrite_fixed sz m a h2 hm value be hbe
  rw [← hW] at e1 e3 e4
  have : beats' = beats := by rw [d1] at e1; injection e1 with e1; exact e1.symm
  subst this
  have hws : ws = wReqs c beats' := d3 (by rw [hok]; simp)
  refine ⟨Stream.Once.taken_eq c1, by rw [hws, wReqs_length, e2], ?_⟩
  intro i w hw mem b
  have hd := congrArg (fun l => l[i]?) (wReqs_decode c beats' e3)
  simp only [List.getElem?_map] at hd
  rw [hws] at hw
  rw [hw] at hd
  exact e4 i _ hd.symm mem b

/-- C60 with latency, the part that holds: if the slave is not ready in the gaps of the write, the read returns what was written. -/
theorem C60_calm_partial (c : AxCfg) (hc : Standard c) (hfull : c.full = true) (a : Nat) (ha : a < 2 ^ c.addrW) (value : List Nat) (size : Option Int)
    (al dl : Nat) (sync : Bool) (sz : Nat) (hl : Legal c a value.length size .incr sz)
    (s : Sim AxIn (AddrOut × WOut)) (hs : WriteReady sync s) (mem : Nat → Byte) (hgw : ∀ i ∈ s.cur :: s.rest, GoodResp i)
    (hok : result (axiWrite c a value size .incr [none] al dl sync s) = some (.ok ()))
    (hcalm : CalmWrite c dl sync value.length (axiWrite c a value size .incr [none] al dl sync s).1)
    (sync' : Bool) (s' : Sim AxIn AddrOut) (hs' : ReadReady sync' s') (hg : ∀ i ∈ s'.cur :: s'.rest, GoodBeat c.dataBytes i) :
    let mem' := busStore c (axiWrite c a value size .incr [none] al dl sync s).1 mem
    let r := axiRead c a value.length size .incr false sync' s'
    let beats := rBeats ((arStream c).after r.1)
    AxiAnswers c.dataBytes sz .incr a value.length (fun _ b => byteBits (mem' b)) (beats.map (·.rdata)) → (∀ i ∈ beats, bitsToNat i.rresp = 0) → result r ≠ none →
      result r = some (.ok (.inl ((List.range value.length).map (fun i =>
        natToBits (8 * if i + 1 = value.length then sz - a % sz else sz) (value.getD i 0))))) :=
  read_stored c hc a ha value size sz hl mem _
    (C56_calm c hc hfull a ha value size [none] (by simp) al dl sync sz hl s hs hgw hok hcalm mem) sync' s' hs' hg

/-! Two values with a latency of one: the first is transferred twice if the slave is ready in the gap (as in `C55_violated`), and once if not. -/

example : offersWithGaps 1 none 2 ["a", "b"] [true, true, true, true, true, true] = [none, none, some "a", some "a", some "b", none] ∧
    takenAt (offersWithGaps 1 none 2 ["a", "b"] [true, true, true, true, true, true]) [true, true, true, true, true, true] = ["a", "a", "b"] := by decide
example : takenAt (offersWithGaps 1 none 2 ["a", "b"] [true, true, true, false, true, true]) [true, true, true, false, true, true] = ["a", "b"] := by decide

def exCalm : Sim AxIn (AddrOut × WOut) := startW [readyIn, readyIn, readyIn, { readyIn with wready := .zero }, readyIn, { bvalid := .one }, {}]
example :
    let r := axiWrite cfgAx 0x100 [0x11223344, 0x55667788] none .incr [none] 0 1 true exCalm
    result r = some (.ok ()) ∧ (readiesOf (wStream cfgAx) (wTrace r.1)).drop (1 + 1) = [true, false, true, false] ∧
      ((wStream cfgAx).taken (wTrace r.1)).map (fun w => (bitsToNat w.data, w.last)) = [(0x11223344, some .zero), (0x55667788, some .one)] := by decide +kernel
example : CalmGaps 1 0 2 [true, false, true, false] := by simp [CalmGaps]
example : (List.range 8).map (fun i => busStore cfgAx (axiWrite cfgAx 0x100 [0x11223344, 0x55667788] none .incr [none] 0 1 true exCalm).1 (fun _ => 0) (0x100 + i)) =
    [0x44, 0x33, 0x22, 0x11, 0x88, 0x77, 0x66, 0x55] := by decide +kernel

end CocotbBus
