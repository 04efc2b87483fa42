import Verif.Proof.AxiReadProps
import Verif.Props.AxiWrite

/-! # Properties C59–C62 and C64: reads and responses of the AXI4 master, AXI4-Lite -/

namespace CocotbBus
open Spec Coro

/-- C59 for INCR: if the beats received after the address was accepted are those of a memory, `read` yields the words at the start
address, `sz` bytes each, the last one shortened if the address is not aligned. What the memory has on lanes outside the transfer
does not matter, and X bits are handed on. -/
theorem C59_incr (c : AxCfg) (hc : Standard c) (a : Nat) (ha : a < 2 ^ c.addrW) (length : Int) (size : Option Int)
    (rr sync : Bool) (sz : Nat) (hl : Legal c a length size .incr sz) (s : Sim AxIn AddrOut) (hs : ReadReady sync s) (hg : ∀ i ∈ s.cur :: s.rest, GoodBeat c.dataBytes i)
    (mem : Nat → LogicArray) :
    let r := axiRead c a length size .incr rr sync s
    let beats := rBeats ((arStream c).after r.1)
    AxiAnswers c.dataBytes sz .incr a length.toNat (fun _ => mem) (beats.map (·.rdata)) → result r ≠ none →
      result r = some (readOutcome rr
        ((List.range length.toNat).map (fun i => memWord mem (a + i * sz) (if i + 1 = length.toNat then sz - a % sz else sz)))
        (beats.map (fun i => bitsToNat i.rresp))) := by
  intro r beats hans hne
  obtain ⟨_, h2, _, k, m, _, hm, hW⟩ := Legal.facts hl hc ha
  rcases axiRead_core c hc a ha length size .incr rr sync sz hl s hs hg with ⟨h, _⟩ | ⟨_, _, sl, h4, h5, ws, h6, h7, h8⟩
  · exact absurd h hne
  · have hlen : beats.length = length.toNat := by have := hans.1; simpa using this
    rw [hW] at hans h4
    obtain ⟨ws', g1, g2, g3⟩ := axiRead_incr sz m a length.toNat h2 hm mem _ hans
    rw [h4] at g1
    injection g1 with g1
    subst g1
    rw [h6] at g3
    injection g3 with g3
    rw [show result r = _ from h8, if_pos hlen, g3]

/-- C59 for FIXED: every word is the part of the beat from the start address to the end of its block. -/
theorem C59_fixed (c : AxCfg) (hc : Standard c) (a : Nat) (ha : a < 2 ^ c.addrW) (length : Int) (size : Option Int)
    (rr sync : Bool) (sz : Nat) (hl : Legal c a length size .fixed sz) (s : Sim AxIn AddrOut) (hs : ReadReady sync s) (hg : ∀ i ∈ s.cur :: s.rest, GoodBeat c.dataBytes i)
    (mem : Nat → Nat → LogicArray) :
    let r := axiRead c a length size .fixed rr sync s
    let beats := rBeats ((arStream c).after r.1)
    AxiAnswers c.dataBytes sz .fixed a length.toNat mem (beats.map (·.rdata)) → result r ≠ none →
      result r = some (readOutcome rr ((List.range length.toNat).map (fun i => memWord (mem i) a (sz - a % sz))) (beats.map (fun i => bitsToNat i.rresp))) := by
  intro r beats hans hne
  obtain ⟨_, h2, _, k, m, _, hm, hW⟩ := Legal.facts hl hc ha
  rcases axiRead_core c hc a ha length size .fixed rr sync sz hl s hs hg with ⟨h, _⟩ | ⟨_, _, sl, h4, h5, ws, h6, h7, h8⟩
  · exact absurd h hne
  · have hlen : beats.length = length.toNat := by have := hans.1; simpa using this
    rw [hW] at hans h4
    obtain ⟨ws', g1, g2, g3⟩ := axiRead_fixed sz m a length.toNat h2 hm mem _ hans
    rw [h4] at g1
    injection g1 with g1
    subst g1
    rw [h6] at g3
    injection g3 with g3
    rw [show result r = _ from h8, if_pos hlen, g3]

/-- C58 for reads by the API, the part that holds: an aligned WRAP burst that is a multiple of the bus width long or starts at the boundary. -/
theorem C58_read_partial (c : AxCfg) (hc : Standard c) (a : Nat) (ha : a < 2 ^ c.addrW) (length : Int) (size : Option Int)
    (rr sync : Bool) (sz : Nat) (hl : Legal c a length size .wrap sz) (hal : a % sz = 0) (hfull : c.dataBytes ∣ sz * length.toNat ∨ a % (sz * length.toNat) = 0)
    (s : Sim AxIn AddrOut) (hs : ReadReady sync s) (hg : ∀ i ∈ s.cur :: s.rest, GoodBeat c.dataBytes i)
    (mem : Nat → LogicArray) :
    let r := axiRead c a length size .wrap rr sync s
    let beats := rBeats ((arStream c).after r.1)
    AxiAnswers c.dataBytes sz .wrap a length.toNat (fun _ => mem) (beats.map (·.rdata)) → result r ≠ none →
      result r = some (readOutcome rr ((List.range length.toNat).map (fun i => memWord mem (beatAddr sz .wrap a length.toNat i) sz)) (beats.map (fun i => bitsToNat i.rresp))) := by
  intro r beats hans hne
  obtain ⟨_, h2, _, k, m, _, hm, hW⟩ := Legal.facts hl hc ha
  have hdvd : m ∣ length.toNat ∨ a % (sz * length.toNat) = 0 := by
    rw [hW] at hfull
    exact hfull.imp_left (Nat.dvd_of_mul_dvd_mul_left h2)
  rcases axiRead_core c hc a ha length size .wrap rr sync sz hl s hs hg with ⟨h, _⟩ | ⟨_, _, sl, h4, h5, ws, h6, h7, h8⟩
  · exact absurd h hne
  · have hlen : beats.length = length.toNat := by have := hans.1; simpa using this
    rw [hW] at hans h4
    obtain ⟨ws', g1, g2, g3⟩ := axiRead_wrap sz m a length.toNat h2 hm mem _ hal hdvd hans
    rw [h4] at g1
    injection g1 with g1
    subst g1
    rw [h6] at g3
    injection g3 with g3
    rw [show result r = _ from h8, if_pos hlen, g3]

/-- A read starting on an idle channel. -/
def startR (sched : List AxIn) : Sim AxIn AddrOut := ⟨.mid, idleA, {}, sched.headD {}, sched.tail⟩

theorem startR_ready (sync : Bool) (sched : List AxIn) : ReadReady sync (startR sched) := ⟨.inr (by simp [startR]), rfl⟩

/-- A read beat. -/
def rIn (v : Nat) (resp : Nat) (last : Logic) : AxIn := { rvalid := .one, rready := .one, rdata := natToBits 32 v, rresp := natToBits 2 resp, rlast := last }

-- two beats from an unaligned address: the second word is shortened
example : let r := axiRead cfgAx 0x101 2 none .incr false true (startR [{}, {}, readyIn, {}, rIn 0x33221100 0 .zero, {}, rIn 0x77665544 0 .one, {}])
    result r = some (.ok (.inl [natToBits 32 0x44332211, natToBits 24 0x776655])) := by decide +kernel

/-- What a read returns from a memory that contains what an INCR write of `value` stores. -/
theorem read_stored (c : AxCfg) (hc : Standard c) (a : Nat) (ha : a < 2 ^ c.addrW) (value : List Nat) (size : Option Int)
    (sz : Nat) (hl : Legal c a value.length size .incr sz) (mem mem' : Nat → Byte)
    (hst : ∀ b, mem' b =
      if a ≤ b ∧ b < a + value.length * sz - a % sz ∧ axiEnabled [none] ((b - a) / sz) ((b - a) % sz) = true
      then byteOf (value.getD ((b - a) / sz) 0) ((b - a) % sz) else mem b)
    (sync' : Bool) (s' : Sim AxIn AddrOut) (hs' : ReadReady sync' s') (hg : ∀ i ∈ s'.cur :: s'.rest, GoodBeat c.dataBytes i) :
    let r := axiRead c a value.length size .incr false sync' s'
    let beats := rBeats ((arStream c).after r.1)
    AxiAnswers c.dataBytes sz .incr a value.length (fun _ b => byteBits (mem' b)) (beats.map (·.rdata)) → (∀ i ∈ beats, bitsToNat i.rresp = 0) → result r ≠ none →
      result r = some (.ok (.inl ((List.range value.length).map (fun i =>
        natToBits (8 * if i + 1 = value.length then sz - a % sz else sz) (value.getD i 0))))) := by
  intro r beats hans hresp hne
  obtain ⟨_, h2, _, k, m, _, hm, hW⟩ := Legal.facts hl hc ha
  have h := C59_incr c hc a ha value.length size false sync' sz hl s' hs' hg (fun b => byteBits (mem' b)) hans hne
  rw [show result r = _ from h]
  unfold readOutcome
  have hfind : (beats.map (fun i => bitsToNat i.rresp)).find? (fun r => decide (r ≠ 0)) = none := by
    rw [List.find?_eq_none]
    intro x hx
    obtain ⟨i, hi, rfl⟩ := List.mem_map.1 hx
    simp [hresp i hi]
  rw [if_neg (by simp), hfind]
  simp only
  congr 3
  apply List.map_congr_left
  intro i hi
  rw [List.mem_range] at hi
  change i < value.length at hi
  show memWord _ (a + i * sz) (if i + 1 = value.length then sz - a % sz else sz) = _
  have hmod := Nat.mod_lt a h2
  apply memWord_value
  intro j hj
  have hj' : j < sz := by split at hj <;> omega
  show byteBits (mem' (a + i * sz + j)) = _
  rw [hst (a + i * sz + j)]
  have hq : (a + i * sz + j - a) / sz = i := by
    rw [show a + i * sz + j - a = j + sz * i by rw [Nat.mul_comm]; omega, Nat.add_mul_div_left _ _ h2, Nat.div_eq_of_lt hj', Nat.zero_add]
  have hr : (a + i * sz + j - a) % sz = j := by
    rw [show a + i * sz + j - a = j + sz * i by rw [Nat.mul_comm]; omega, Nat.add_mul_mod_self_left, Nat.mod_eq_of_lt hj']
  have hle : (i + 1) * sz ≤ value.length * sz := Nat.mul_le_mul_right _ hi
  rw [Nat.add_mul, Nat.one_mul] at hle
  have hin : a + i * sz + j < a + value.length * sz - a % sz := by
    by_cases hlast : i + 1 = value.length
    · rw [if_pos hlast] at hj
      omega
    · have hle2 : (i + 1 + 1) * sz ≤ value.length * sz := Nat.mul_le_mul_right _ (by omega)
      rw [Nat.add_mul, Nat.add_mul, Nat.one_mul] at hle2
      omega
  have hen : axiEnabled [none] i j = true := by
    unfold axiEnabled
    cases i <;> rfl
  rw [hq, hr, if_pos ⟨by omega, hin, hen⟩]

/-- C60, the part that holds (no data latency, or one value): what a completed write with all byte enables has put into a memory is returned by a later read of the same address, size and
number of words that the memory answers without error: the values, the last one shortened if the address is not aligned. -/
theorem C60_round_trip_partial (c : AxCfg) (hc : Standard c) (hfull : c.full = true) (a : Nat) (ha : a < 2 ^ c.addrW) (value : List Nat) (size : Option Int)
    (al dl : Nat) (hd : dl = 0 ∨ value.length = 1) (sync : Bool) (sz : Nat) (hl : Legal c a value.length size .incr sz)
    (s : Sim AxIn (AddrOut × WOut)) (hs : WriteReady sync s) (mem : Nat → Byte)
    (hok : result (axiWrite c a value size .incr [none] al dl sync s) = some (.ok ()))
    (sync' : Bool) (s' : Sim AxIn AddrOut) (hs' : ReadReady sync' s') (hg : ∀ i ∈ s'.cur :: s'.rest, GoodBeat c.dataBytes i) :
    let mem' := busStore c (axiWrite c a value size .incr [none] al dl sync s).1 mem
    let r := axiRead c a value.length size .incr false sync' s'
    let beats := rBeats ((arStream c).after r.1)
    AxiAnswers c.dataBytes sz .incr a value.length (fun _ b => byteBits (mem' b)) (beats.map (·.rdata)) → (∀ i ∈ beats, bitsToNat i.rresp = 0) → result r ≠ none →
      result r = some (.ok (.inl ((List.range value.length).map (fun i =>
        natToBits (8 * if i + 1 = value.length then sz - a % sz else sz) (value.getD i 0))))) := by
  exact read_stored c hc a ha value size sz hl mem _ (C56_incr c hc hfull a ha value size [none] (by simp) al dl hd sync sz hl s hs hok mem) sync' s' hs' hg

-- write two words, read them back from the memory
example : let w := axiWrite cfgAx 0x101 [0x44332211, 0x88776655] none .incr [none] 0 0 true (startW [{}, {}, {}, readyIn, readyIn, readyIn, { bvalid := .one }, {}])
    result w = some (.ok ()) ∧ (List.range 8).map (fun i => busStore cfgAx w.1 (fun _ => 0) (0x100 + i)) = [0, 0x11, 0x22, 0x33, 0x44, 0x55, 0x66, 0x77] ∧
    result (axiRead cfgAx 0x101 2 none .incr false true (startR [{}, {}, readyIn, {}, rIn 0x33221100 0 .zero, {}, rIn 0x77665544 0 .one, {}])) =
      some (.ok (.inl [natToBits 32 0x44332211, natToBits 24 0x88776655])) := by decide +kernel

/-- C60 is false with data latency: because of C55 the memory gets the first value twice. -/
theorem C60_violated :
    let w := axiWrite cfgAx 0x100 [0x44332211, 0x88776655] none .incr [none] 0 1 true (startW [readyIn, readyIn, readyIn, readyIn, readyIn, { bvalid := .one }, {}])
    result w = some (.ok ()) ∧ (List.range 8).map (fun i => busStore cfgAx w.1 (fun _ => 0) (0x100 + i)) = [0x11, 0x22, 0x33, 0x44, 0x11, 0x22, 0x33, 0x44] := by
  decide +kernel

/-- C61: a read that has not ended has not seen a last beat since its address was accepted; if it has ended, the edges from then on
are those of one burst up to its last beat, and the mismatch error is raised exactly if that burst does not have the requested
number of beats. -/
theorem C61_beats (c : AxCfg) (hc : Standard c) (a : Nat) (ha : a < 2 ^ c.addrW) (length : Int) (size : Option Int) (burst : AxiBurst)
    (rr sync : Bool) (sz : Nat) (hl : Legal c a length size burst sz) (s : Sim AxIn AddrOut) (hs : ReadReady sync s) (hg : ∀ i ∈ s.cur :: s.rest, GoodBeat c.dataBytes i) :
    let r := axiRead c a length size burst rr sync s
    let t := (arStream c).after r.1
    (result r = none → ∀ q ∈ t, rFire q.2 = true → rLast c q.2 = false) ∧
    (result r ≠ none → OneBurst c t) ∧
    (result r = some (.error .axiReadBurstLengthMismatch) ↔ result r ≠ none ∧ (rBeats t).length ≠ length) := by
  intro r t
  have hpos := lengthOk_pos _ _ hl.2.1
  rcases axiRead_core c hc a ha length size burst rr sync sz hl s hs hg with ⟨h, h'⟩ | ⟨h1, h2, sl, h4, h5, ws, h6, h7, h8⟩
  · refine ⟨fun _ => h', fun hn => absurd h hn, ?_⟩
    rw [show result r = none from h]
    simp
  · refine ⟨fun hn => ?_, fun _ => h1, ?_⟩
    · rw [show result r = _ from h8] at hn
      cases hn
    · rw [show result r = _ from h8]
      by_cases hlen : (rBeats t).length = length.toNat
      · rw [if_pos hlen]
        constructor
        · intro h
          exfalso
          injection h with h
          unfold readOutcome at h
          split at h
          · cases h
          · split at h <;> cases h
        · rintro ⟨_, h⟩
          exfalso
          apply h
          rw [hlen]
          omega
      · rw [if_neg hlen]
        refine ⟨fun _ => ⟨by simp, ?_⟩, fun _ => rfl⟩
        intro h
        apply hlen
        omega

-- one beat instead of two, and three instead of two
example : result (axiRead cfgAx 0x100 2 none .incr false true (startR [{}, readyIn, {}, rIn 1 0 .one, {}])) = some (.error .axiReadBurstLengthMismatch) ∧
    result (axiRead cfgAx 0x100 2 none .incr true true (startR [{}, readyIn, {}, rIn 1 0 .zero, rIn 2 0 .zero, rIn 3 0 .one, {}])) = some (.error .axiReadBurstLengthMismatch) := by
  constructor <;> decide +kernel

/-- C62, reads: a burst of the right length is reported by `readOutcome`: with `return_rresp` every word with the response of its own
beat, otherwise the first response that is not OKAY is raised, and the words are returned exactly if there is none. -/
theorem C62_read (c : AxCfg) (hc : Standard c) (a : Nat) (ha : a < 2 ^ c.addrW) (length : Int) (size : Option Int) (burst : AxiBurst)
    (rr sync : Bool) (sz : Nat) (hl : Legal c a length size burst sz) (s : Sim AxIn AddrOut) (hs : ReadReady sync s) (hg : ∀ i ∈ s.cur :: s.rest, GoodBeat c.dataBytes i) :
    let r := axiRead c a length size burst rr sync s
    let beats := rBeats ((arStream c).after r.1)
    result r ≠ none → beats.length = length →
      ∃ words, words.length = beats.length ∧ result r = some (readOutcome rr words (beats.map (fun i => bitsToNat i.rresp))) := by
  intro r beats hne hlen
  rcases axiRead_core c hc a ha length size burst rr sync sz hl s hs hg with ⟨h, h'⟩ | ⟨h1, h2, sl, h4, h5, ws, h6, h7, h8⟩
  · exact absurd h hne
  · refine ⟨ws, by rw [h7, h5], ?_⟩
    rw [show result r = _ from h8, if_pos (by show beats.length = _; omega)]

example : result (axiRead cfgAx 0x100 3 none .incr false true (startR [{}, readyIn, {}, rIn 1 0 .zero, rIn 2 2 .zero, rIn 3 3 .one, {}])) = some (.error (.axiProtocol 2)) ∧
    result (axiRead cfgAx 0x100 2 none .incr true true (startR [{}, readyIn, {}, rIn 1 0 .zero, rIn 2 3 .one, {}])) =
      some (.ok (.inr [(natToBits 32 1, 0), (natToBits 32 2, 3)])) := by
  constructor <;> decide +kernel

/-- C62, writes, for every latency: a write ends only after its address and all its data have been accepted; the first response
transferred from then on decides: OKAY lets it return, anything else raises AXIProtocolError with that response. -/
theorem C62_write (c : AxCfg) (hc : Standard c) (a : Nat) (ha : a < 2 ^ c.addrW) (value : List Nat) (size : Option Int) (burst : AxiBurst)
    (be : List (Option Nat)) (hbe : be ≠ [])
    (al dl : Nat) (sync : Bool) (sz : Nat) (hl : Legal c a value.length size burst sz) (s : Sim AxIn (AddrOut × WOut)) (hs : WriteReady sync s)
    (hg : ∀ i ∈ s.cur :: s.rest, GoodResp i) :
    let r := axiWrite c a value size burst be al dl sync s
    ∃ t1 t2 beats, r.1 = t1 ++ t2 ∧ axiWriteBeats c.dataBytes sz a burst value be = .ok beats ∧ beats.length = value.length ∧
      ((t2 = [] ∧ result r = none) ∨
       ((awStream c).taken (awTrace t1) = [addrReq c a value.length sz burst] ∧ Stutters dl (wReqs c beats) ((wStream c).taken (wTrace t1)) ∧
        (∃ q, t1.getLast? = some q ∧ ((awStream c).xfer (q.1.1, q.2) = true ∨ (wStream c).xfer (q.1.2, q.2) = true)) ∧
        WriteResponse t2 (result r))) := by
  intro r
  obtain ⟨t1, t2, beats, e1, e2, e3, e4⟩ := C55_any_latency_partial c hc a ha value size burst be hbe al dl sync sz hl s hs hg
  refine ⟨t1, t2, beats, e1, e2, e3, ?_⟩
  rcases e4 with ⟨f1, f2, _⟩ | ⟨f1, f2, f3, _, f5⟩
  · exact .inl ⟨f1, f2⟩
  · exact .inr ⟨f1, f2, f3, f5⟩

-- the answer is an error
example : result (axiWrite cfgAx 0x100 [1] none .incr [none] 0 0 true (startW [{}, readyIn, { bvalid := .one, bready := .one, bresp := natToBits 2 2 }, {}, {}])) =
    some (.error (.axiProtocol 2)) := by decide +kernel

/-! ### AXI4-Lite -/

theorem lite_standard (addrW j : Nat) (hj : j ≤ 7) : Standard (AxCfg.lite addrW (2 ^ j)) := ⟨⟨j, hj, rfl⟩, rfl, rfl, rfl⟩

/-- C64, the sequence: it is rejected, and nothing changes. -/
theorem C64_sequence (c : AxCfg) (a : Nat) (value : List Nat) (be : Option Nat) (al dl : Nat) (sync : Bool) (s : Sim AxIn (AddrOut × WOut)) :
    liteWrite c a (.inr value) be al dl sync s = ([], .err .valueError s) := rfl

theorem liteWrite_eq (c : AxCfg) (a v : Nat) (be : Option Nat) (al dl : Nat) (sync : Bool) (s : Sim AxIn (AddrOut × WOut)) :
    (liteWrite c a (.inl v) be al dl sync s).1 = (axiWrite c a [v] none .incr [be] al dl sync s).1 ∧
    result (liteWrite c a (.inl v) be al dl sync s) = (result (axiWrite c a [v] none .incr [be] al dl sync s)).map (fun x => x.map (fun _ => [.zero, .zero])) := by
  unfold liteWrite
  simp only
  rw [bind_run]
  generalize axiWrite c a [v] none .incr [be] al dl sync s = X
  obtain ⟨t, e⟩ := X
  cases e with
  | ok u s' => rw [andThen_ok]; exact ⟨List.append_nil _, rfl⟩
  | err e s' => rw [andThen_err]; exact ⟨rfl, rfl⟩
  | blocked s' => rw [andThen_blocked]; exact ⟨rfl, rfl⟩

/-- C64, writes: one address beat and one data beat; they are accepted when the write returns, and then the memory contains the value
(from the address to the end of the bus word, where enabled). -/
theorem C64_write (addrW j : Nat) (hj : j ≤ 7) (a : Nat) (ha : a < 2 ^ addrW) (v : Nat) (be : Option Nat) (al dl : Nat) (sync : Bool)
    (s : Sim AxIn (AddrOut × WOut)) (hs : WriteReady sync s) :
    let c := AxCfg.lite addrW (2 ^ j)
    let r := liteWrite c a (.inl v) be al dl sync s
    (∃ accepted, (awStream c).Once ⟨natToBits addrW a, none⟩ (al + if sync then 1 else 0) (awTrace r.1) accepted ∧ (∀ z, result r = some (.ok z) → accepted = true)) ∧
    (∃ beat done, (wStream c).Burst [beat] [dl + if sync then 1 else 0] (wTrace r.1) done ∧ (∀ z, result r = some (.ok z) → done = true)) ∧
    (∀ z, result r = some (.ok z) → z = [.zero, .zero] ∧ ∀ mem b, busStore c r.1 mem b =
      if a ≤ b ∧ b < a + 2 ^ j - a % 2 ^ j ∧ axiEnabled [be] 0 (b - a) = true then byteOf v (b - a) else mem b) := by
  intro c r
  have hc : Standard c := lite_standard addrW j hj
  have hl : Legal c a ([v] : List Nat).length none .incr (2 ^ j) := legal_single c hc a
  obtain ⟨h1, h2⟩ := liteWrite_eq c a v be al dl sync s
  change r.1 = _ at h1
  change result r = _ at h2
  have hres : ∀ z, result r = some (.ok z) → z = [.zero, .zero] ∧ result (axiWrite c a [v] none .incr [be] al dl sync s) = some (.ok ()) := by
    intro z hz
    rw [h2] at hz
    cases hx : result (axiWrite c a [v] none .incr [be] al dl sync s) with
    | none => rw [hx] at hz; cases hz
    | some y =>
      rw [hx] at hz
      cases y with
      | error e => cases hz
      | ok u => refine ⟨?_, rfl⟩; injection hz with hz; injection hz with hz; exact hz.symm
  obtain ⟨acc, c1, c2, _⟩ := C54_write c hc a ha [v] none .incr [be] al dl sync (2 ^ j) hl s hs
  obtain ⟨beats, done, d1, d2, d3, d4⟩ := C55_one_per_beat_partial c hc a ha [v] none .incr [be] (by simp) al dl (.inr rfl) sync (2 ^ j) hl s hs
  obtain ⟨p, hp⟩ : ∃ p, wReqs c beats = [p] := by
    have : (wReqs c beats).length = 1 := by rw [wReqs_length, d2]; rfl
    exact List.length_eq_one_iff.1 this
  refine ⟨⟨acc, by rw [h1]; exact c1, fun z hz => c2 () (hres z hz).2⟩, ⟨p, done, by rw [h1, ← hp]; exact d3, fun z hz => d4 () (hres z hz).2⟩, ?_⟩
  intro z hz
  obtain ⟨hz1, hok⟩ := hres z hz
  refine ⟨hz1, ?_⟩
  intro mem b
  rw [h1]
  rw [c2 _ hok] at c1
  rw [d4 _ hok] at d3
  obtain ⟨g1, g2, g3, k, m, hk, hm, hW⟩ := Legal.facts hl hc ha
  obtain ⟨beats', e1, e2, e3, e4⟩ := axiWrite_incr (2 ^ j) m a g2 hm [v] [be] (by simp)
  rw [← hW] at e1 e3 e4
  have : beats' = beats := by rw [d1] at e1; injection e1 with e1; exact e1.symm
  subst this
  rw [busStore_eq c a 1 (2 ^ j) k .incr g1 hk (by decide) (fun _ => ⟨rfl, rfl, rfl⟩) beats' e3 _ (Stream.Once.taken_eq c1) (Stream.Burst.taken_eq d3)]
  refine (e4 mem b).trans ?_
  simp only [List.length_singleton, Nat.one_mul]
  by_cases hb : a ≤ b ∧ b < a + 2 ^ j - a % 2 ^ j
  · have hlt : b - a < 2 ^ j := by omega
    simp only [Nat.div_eq_of_lt hlt, Nat.mod_eq_of_lt hlt]
    rfl
  · rw [if_neg (fun h => hb ⟨h.1, h.2.1⟩), if_neg (fun h => hb ⟨h.1, h.2.1⟩)]

/-- C64, error responses of writes. -/
theorem C64_write_response (addrW j : Nat) (hj : j ≤ 7) (a : Nat) (ha : a < 2 ^ addrW) (v : Nat) (be : Option Nat) (al dl : Nat) (sync : Bool)
    (s : Sim AxIn (AddrOut × WOut)) (hs : WriteReady sync s) (hg : ∀ i ∈ s.cur :: s.rest, GoodResp i) :
    let c := AxCfg.lite addrW (2 ^ j)
    let r := liteWrite c a (.inl v) be al dl sync s
    ∃ t1 t2, r.1 = t1 ++ t2 ∧
      ((t2 = [] ∧ result r = none) ∨
       (((awStream c).taken (awTrace t1)).length = 1 ∧ ((wStream c).taken (wTrace t1)).length = 1 ∧
        WriteResponse t2 ((result r).map (fun x => x.map (fun _ => ()))))) := by
  intro c r
  have hc : Standard c := lite_standard addrW j hj
  have hl : Legal c a ([v] : List Nat).length none .incr (2 ^ j) := legal_single c hc a
  obtain ⟨h1, h2⟩ := liteWrite_eq c a v be al dl sync s
  change r.1 = _ at h1
  change result r = _ at h2
  obtain ⟨t1, t2, beats, e1, _, eb, e2⟩ := C62_write c hc a ha [v] none .incr [be] (by simp) al dl sync (2 ^ j) hl s hs hg
  refine ⟨t1, t2, by rw [h1]; exact e1, ?_⟩
  have hmap : (result r).map (fun x => x.map (fun _ => ())) = result (axiWrite c a [v] none .incr [be] al dl sync s) := by
    rw [h2]
    cases result (axiWrite c a [v] none .incr [be] al dl sync s) with
    | none => rfl
    | some y => cases y <;> rfl
  rcases e2 with ⟨e2, e3⟩ | ⟨e2, e3, _, e4⟩
  · exact .inl ⟨e2, by rw [h2, e3]; rfl⟩
  · have h1 : ((wStream c).taken (wTrace t1)).length = 1 := by
      obtain ⟨p, hp⟩ : ∃ p, wReqs c beats = [p] := by
        have : (wReqs c beats).length = 1 := by rw [wReqs_length, eb]; rfl
        exact List.length_eq_one_iff.1 this
      rw [hp] at e3
      generalize (wStream c).taken (wTrace t1) = m at e3
      cases e3 with
      | last => rfl
      | cons _ _ _ _ _ h => exact absurd rfl h
    refine .inr ⟨by rw [e2]; rfl, h1, ?_⟩
    rw [hmap]
    exact e4

/-- C64, reads: one address beat, and the first data beat transferred after it is the answer: its word from the address to its end if the
response is OKAY, and AXIProtocolError with the response otherwise. -/
theorem C64_read (addrW j : Nat) (hj : j ≤ 7) (a : Nat) (ha : a < 2 ^ addrW) (sync : Bool)
    (s : Sim AxIn AddrOut) (hs : ReadReady sync s) (hg : ∀ i ∈ s.cur :: s.rest, GoodBeat (2 ^ j) i) :
    let c := AxCfg.lite addrW (2 ^ j)
    let r := liteRead c a sync s
    let t := (arStream c).after r.1
    (∃ accepted, (arStream c).Once ⟨natToBits addrW a, none⟩ (if sync then 1 else 0) r.1 accepted ∧ (result r ≠ none → accepted = true)) ∧
    ((result r = none ∧ ∀ q ∈ t, rFire q.2 = false) ∨
     ∃ t' q, t = t' ++ [q] ∧ (∀ p ∈ t', rFire p.2 = false) ∧ rFire q.2 = true ∧
       result r = some (if bitsToNat q.2.rresp = 0 then .ok (memWord (lane q.2.rdata) (a % 2 ^ j) (2 ^ j - a % 2 ^ j)) else .error (.axiProtocol (bitsToNat q.2.rresp)))) := by
  intro c r t
  have hc : Standard c := lite_standard addrW j hj
  have hl : Legal c a 1 none .incr (2 ^ j) := legal_single c hc a
  obtain ⟨g1, g2, g3, k, m, hk, hm, hW⟩ := Legal.facts hl hc ha
  obtain ⟨acc, a1, a2, _⟩ := C54_read c hc a ha 1 none .incr false sync (2 ^ j) hl s hs hg
  have hcore := axiRead_core c hc a ha 1 none .incr false sync (2 ^ j) hl s hs hg
  have hans := C59_incr c hc a ha 1 none false sync (2 ^ j) hl s hs hg
  simp only at hcore hans
  have hr : r = Res.andThen (axiRead c a 1 none .incr false sync s) liteFirst := by
    show liteRead c a sync s = _
    unfold liteRead
    rw [bind_run]
  have htr : r.1 = (axiRead c a 1 none .incr false sync s).1 := by
    rw [hr]
    generalize axiRead c a 1 none .incr false sync s = X
    obtain ⟨t, e⟩ := X
    cases e with
    | ok u s' =>
      rw [andThen_ok]
      unfold liteFirst
      simp only
      split <;> exact List.append_nil _
    | err e s' => rw [andThen_err]
    | blocked s' => rw [andThen_blocked]
  have hnone : result (axiRead c a 1 none .incr false sync s) = none → result r = none := by
    rw [hr]
    generalize axiRead c a 1 none .incr false sync s = X
    obtain ⟨t, e⟩ := X
    intro h
    cases e with
    | ok u s' => cases h
    | err e s' => cases h
    | blocked s' => rw [andThen_blocked]; rfl
  have herr : ∀ e, result (axiRead c a 1 none .incr false sync s) = some (.error e) → result r = some (.error e) := by
    rw [hr]
    generalize axiRead c a 1 none .incr false sync s = X
    obtain ⟨t, e⟩ := X
    intro e' h
    cases e with
    | ok u s' => cases h
    | err e s' => rw [andThen_err]; simp only [result, Option.some.injEq, Except.error.injEq] at h ⊢; exact h
    | blocked s' => cases h
  have hval : ∀ d l, result (axiRead c a 1 none .incr false sync s) = some (.ok (.inl (d :: l))) → result r = some (.ok d) := by
    rw [hr]
    generalize axiRead c a 1 none .incr false sync s = X
    obtain ⟨t, e⟩ := X
    intro d l h
    cases e with
    | ok u s' =>
      have : u = .inl (d :: l) := by
        simp only [result] at h
        injection h with h
        injection h
      subst this
      rw [andThen_ok]
      rfl
    | err e s' => cases h
    | blocked s' => cases h
  have hlast : ∀ i, rLast c i = true := fun i => rfl
  have hsome : result r ≠ none → result (axiRead c a 1 none .incr false sync s) ≠ none := fun h h' => h (hnone h')
  refine ⟨⟨acc, by rw [htr]; exact a1, fun h => a2 (hsome h)⟩, ?_⟩
  have ht : t = (arStream c).after (axiRead c a 1 none .incr false sync s).1 := by
    show (arStream c).after r.1 = _
    rw [htr]
  rw [← ht] at hcore hans
  rcases hcore with ⟨h1, h2⟩ | ⟨h1, h2, sl, h4, h5, ws, h6, h7, h8⟩
  · left
    refine ⟨hnone h1, ?_⟩
    intro q hq
    cases hf : rFire q.2 with
    | false => rfl
    | true =>
      have := h2 q hq hf
      rw [hlast] at this
      exact this
  · right
    obtain ⟨t', q, e1, e2, _, e4⟩ := h1
    have e4' : ∀ p ∈ t', rFire p.2 = false := by
      intro p hp
      cases hf : rFire p.2 with
      | false => rfl
      | true =>
        have := e4 p hp hf
        rw [hlast] at this
        cases this
    refine ⟨t', q, e1, e4', e2, ?_⟩
    have hbeats : rBeats t = [q.2] := by
      unfold rBeats
      rw [e1, List.map_append, List.filter_append]
      have : (t'.map Prod.snd).filter rFire = [] := by
        rw [List.filter_eq_nil_iff]
        intro i hi
        obtain ⟨p, hp, rfl⟩ := List.mem_map.1 hi
        simp [e4' p hp]
      rw [this]
      simp [e2]
    have hne : result (axiRead c a 1 none .incr false sync s) ≠ none := by rw [h8]; simp
    have hpos : 0 < 2 ^ j := Nat.two_pow_pos j
    have hm1 := Nat.mod_lt a hpos
    have hres := hans (fun b => lane q.2.rdata (b % 2 ^ j)) (by
      rw [hbeats]
      refine ⟨rfl, ?_⟩
      intro n v hv
      cases n with
      | zero =>
        simp only [List.map_cons, List.getElem?_cons_zero] at hv
        injection hv with hv
        subst hv
        exact ⟨h2 q.2 (by rw [hbeats]; simp), fun b _ => rfl⟩
      | succ n => simp at hv) hne
    rw [hbeats] at hres
    unfold readOutcome at hres
    simp only [List.map_cons, List.map_nil, Bool.false_eq_true, if_false] at hres
    by_cases h0 : bitsToNat q.2.rresp = 0
    · rw [if_pos h0]
      rw [show List.find? (fun r => decide (r ≠ 0)) [bitsToNat q.2.rresp] = none by simp [h0]] at hres
      rw [hval _ [] hres]
      congr 2
      show memWord _ (a + 0 * 2 ^ j) (2 ^ j - a % 2 ^ j) = _
      apply memWord_congr
      intro i hi
      show lane q.2.rdata ((a + 0 * 2 ^ j + i) % 2 ^ j) = _
      congr 1
      have hd := Nat.div_add_mod a (2 ^ j)
      rw [Nat.zero_mul, Nat.add_zero, show a + i = a % 2 ^ j + i + 2 ^ j * (a / 2 ^ j) by omega, Nat.add_mul_mod_self_left, Nat.mod_eq_of_lt (by omega)]
    · rw [if_neg h0]
      rw [show List.find? (fun r => decide (r ≠ 0)) [bitsToNat q.2.rresp] = some (bitsToNat q.2.rresp) by simp [h0]] at hres
      exact herr _ hres

-- RLAST does not exist
example : let c := AxCfg.lite 16 4
    result (liteWrite c 0x101 (.inl 0x44332211) none 2 1 true (startW [{}, readyIn, readyIn, readyIn, readyIn, readyIn, { bvalid := .one, bready := .one }, {}])) = some (.ok [.zero, .zero]) ∧
    result (liteRead c 0x101 true (startR [{}, {}, readyIn, {}, rIn 0x33221100 0 .zero, {}])) = some (.ok (natToBits 24 0x332211)) ∧
    result (liteRead c 0x101 true (startR [{}, {}, readyIn, {}, rIn 0x33221100 3 .zero, {}])) = some (.error (.axiProtocol 3)) := by decide +kernel

-- nor does WLAST
example (addrW dataBytes : Nat) (beats : List (Nat × Nat)) : ∀ w ∈ wReqs (AxCfg.lite addrW dataBytes) beats, w.last = none := by
  induction beats with
  | nil => intro w h; cases h
  | cons b r ih =>
    obtain ⟨d, s⟩ := b
    intro w h
    rcases List.mem_cons.1 h with rfl | h
    · rfl
    · exact ih w h

end CocotbBus
