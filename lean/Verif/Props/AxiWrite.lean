import Verif.Proof.AxiStutter

/-! # Properties C50–C58: requests and writes of the AXI4 master -/

namespace CocotbBus
open Spec Coro

/-- C50: the length check accepts exactly the legal burst lengths, and raises ValueError for all others. -/
theorem C50_length (length : Int) (burst : AxiBurst) :
    (LengthOk burst length → axiCheckLength length burst = .ok ()) ∧ (¬ LengthOk burst length → axiCheckLength length burst = .error .valueError) :=
  axiCheckLength_iff length burst

example : axiCheckLength 256 .incr = .ok () ∧ axiCheckLength 257 .incr = .error .valueError ∧ axiCheckLength 17 .fixed = .error .valueError ∧
    axiCheckLength 3 .wrap = .error .valueError ∧ axiCheckLength 0 .incr = .error .valueError ∧ axiCheckLength (-1) .fixed = .error .valueError := by decide

/-- C51: the size check accepts exactly the powers of two up to the bus width, and raises ValueError for all others. -/
theorem C51_size (size : Int) (W : Nat) :
    (SizeOk W size → axiSize (some size) W = .ok size.toNat) ∧ (¬ SizeOk W size → axiSize (some size) W = .error .valueError) := by
  constructor
  · intro h; rw [axiSize, (axiCheckSize_iff size W).1 h]; rfl
  · intro h; rw [axiSize, (axiCheckSize_iff size W).2 h]; rfl

/-- C51: the number put on AxSIZE is the base-2 logarithm (C54 says that it is that number which the slave sees). -/
theorem C51_code (k : Nat) : bitLength (2 ^ k) - 1 = k := by
  rw [bitLength_two_pow]

example : SizeOk 8 4 ∧ ¬ SizeOk 8 3 ∧ ¬ SizeOk 8 16 := by
  refine ⟨⟨2, by decide, by decide⟩, ?_, ?_⟩
  · intro h
    have := (C51_size 3 8).1 h
    exact absurd this (by decide)
  · intro h
    have := (C51_size 16 8).1 h
    exact absurd this (by decide)

/-- C52: for beats of 1, 2, ..., 4096 bytes and an aligned or unaligned address an INCR burst is rejected exactly if one of the
bytes it addresses is not in the 4 kB page of its start address. -/
theorem C52_exact (a len k : Nat) (hk : k ≤ 12) (hlen : 0 < len) :
    (OnePage (2 ^ k) .incr a len → axiCheck4k a .incr (2 ^ k) len = .ok ()) ∧
    (¬ OnePage (2 ^ k) .incr a len → axiCheck4k a .incr (2 ^ k) len = .error .valueError) := by
  obtain ⟨q, hq⟩ := dvd_4096 k 12 (Nat.pow_le_pow_right (by decide) hk) (Nat.le_refl _)
  exact axiCheck4k_incr a (2 ^ k) len q (Nat.two_pow_pos k) hq hlen

/-- C52: FIXED and WRAP bursts are never rejected by it; a legal FIXED burst stays in its page anyway. -/
theorem C52_others (a size len : Nat) (burst : AxiBurst) (h : burst ≠ .incr) : axiCheck4k a burst size len = .ok () := by
  cases burst
  · rfl
  · exact absurd rfl h
  · rfl

example : axiCheck4k 4093 .incr 4 1 = .ok () ∧ axiCheck4k 4093 .incr 4 2 = .error .valueError ∧ axiCheck4k 4088 .incr 4 2 = .ok () := by decide

/-- C53, the part that holds: a request that is not legal (C50, C51, C52) raises ValueError, at once and without touching any signal. -/
theorem C53_illegal_partial (c : AxCfg) (hc : Standard c) (a : Nat) (size : Option Int) (burst : AxiBurst) :
    (∀ value be al dl sync s, (¬ ∃ sz, Legal c a (List.length value : Nat) size burst sz) → axiWrite c a value size burst be al dl sync s = ([], .err .valueError s)) ∧
    (∀ length rr sync s, (¬ ∃ sz, Legal c a length size burst sz) → axiRead c a length size burst rr sync s = ([], .err .valueError s)) := by
  obtain ⟨⟨j, hj, hW⟩, _⟩ := hc
  have key : ∀ length : Int, (¬ ∃ sz, Legal c a length size burst sz) → axiChecks c a length size burst = .error .valueError := by
    intro length h
    rcases axiChecks_cases c a length size burst with ⟨sz, h'⟩ | h'
    · exact absurd ⟨sz, (axiChecks_ok c a length size burst sz j hW (by omega)).1 h'⟩ h
    · exact h'
  constructor
  · intro value be al dl sync s h
    unfold axiWrite
    rw [key _ h]
    rfl
  · intro length rr sync s h
    unfold axiRead
    rw [key _ h]
    rfl

/-- A bus with 16 address bits and 4 data bytes. -/
def cfgAx : AxCfg := { addrW := 16, dataBytes := 4 }

theorem cfgAx_standard : Standard cfgAx := ⟨⟨2, by decide, rfl⟩, rfl, rfl, rfl⟩

/-- Idle channels. -/
def idleA : AddrOut := ⟨.zero, [], [], [], []⟩
def idleW : WOut := ⟨.zero, [], [], .zero⟩
/-- A write starting on idle channels, the other signals being as given. -/
def startW (sched : List AxIn) : Sim AxIn (AddrOut × WOut) := ⟨.mid, (idleA, idleW), {}, sched.headD {}, sched.tail⟩

/-- A slave that is always ready. -/
def readyIn : AxIn := { awready := .one, wready := .one, arready := .one }

theorem startW_ready (sync : Bool) (sched : List AxIn) : WriteReady sync (startW sched) := ⟨.inr (by simp [startW]), rfl, rfl⟩

/-- C53 is false: an empty byte_enable raises IndexError, while the address goes out on the bus all the same; and an address that
does not fit raises OverflowError, while the data go out. -/
theorem C53_violated :
    (let r := axiWrite cfgAx 0x10 [1] none .incr [] 0 0 true (startW [readyIn, readyIn, readyIn])
     result r = some (.error .indexError) ∧ (awStream cfgAx).taken (awTrace r.1) = [addrReq cfgAx 0x10 1 4 .incr]) ∧
    (let r := axiWrite cfgAx 0x10000 [1] none .incr [none] 0 0 true (startW [readyIn, readyIn, readyIn])
     result r = some (.error .overflowError) ∧ (wStream cfgAx).taken (wTrace r.1) = [⟨natToBits 32 1, natToBits 4 15, some .one⟩]) := by decide +kernel

/-- C54, writes: for every schedule, latency and legal request exactly one address beat is offered, after `address_latency` (and the
initial) edges without AWVALID; it carries address, burst type, length and size, is held until AWREADY, and AWVALID is low from then
on. It has been accepted when `write` returns. A write that still waits has seen all edges, so it is only AWREADY that can keep
the address waiting. -/
theorem C54_write (c : AxCfg) (hc : Standard c) (a : Nat) (ha : a < 2 ^ c.addrW) (value : List Nat) (size : Option Int) (burst : AxiBurst) (be : List (Option Nat))
    (al dl : Nat) (sync : Bool) (sz : Nat) (hl : Legal c a value.length size burst sz) (s : Sim AxIn (AddrOut × WOut)) (hs : WriteReady sync s) :
    let r := axiWrite c a value size burst be al dl sync s
    ∃ accepted, (awStream c).Once (addrReq c a value.length sz burst) (al + if sync then 1 else 0) (awTrace r.1) accepted ∧
      (∀ z, result r = some (.ok z) → accepted = true) ∧ (result r = none → r.1.map Prod.snd = (s.cur :: s.rest).dropLast) := by
  intro r
  have hr : r = axiWriteRun c a value sz burst be al dl sync s := by
    show axiWrite c a value size burst be al dl sync s = _
    rw [axiWrite_legal c hc a value size burst be al dl sync sz hl]
  obtain ⟨h1, h2, h3, _⟩ := Legal.facts hl hc ha
  obtain ⟨acc, h4, h5⟩ := axiWriteRun_aw c a value sz burst be al dl sync h1 h2 s hs.1 hs.2.1
  rw [hr]
  exact ⟨acc, h4, h5, Good.all_seen (axiWriteRun_good c a value sz burst be al dl sync) s⟩

/-- C54, reads: the same for the read address channel. -/
theorem C54_read (c : AxCfg) (hc : Standard c) (a : Nat) (ha : a < 2 ^ c.addrW) (length : Int) (size : Option Int) (burst : AxiBurst)
    (rr sync : Bool) (sz : Nat) (hl : Legal c a length size burst sz) (s : Sim AxIn AddrOut) (hs : ReadReady sync s) (hg : ∀ i ∈ s.cur :: s.rest, GoodBeat c.dataBytes i) :
    let r := axiRead c a length size burst rr sync s
    ∃ accepted, (arStream c).Once (addrReq c a length.toNat sz burst) (if sync then 1 else 0) r.1 accepted ∧
      (result r ≠ none → accepted = true) ∧ (result r = none → r.1.map Prod.snd = (s.cur :: s.rest).dropLast) := by
  intro r
  have hr : r = axiReadRun c a length.toNat sz burst rr sync s := by
    show axiRead c a length size burst rr sync s = _
    rw [axiRead_legal c hc a length size burst rr sync sz hl]
  obtain ⟨h1, h2, h3, k, m, hk, hm, hW⟩ := Legal.facts hl hc ha
  obtain ⟨t1, t2, ar, e1, e2, e3, e4, e5⟩ := axiReadRun_spec c a length.toNat sz m burst rr sync h1 h2 hm hW s hs.1 hs.2 hg
  rw [hr]
  refine ⟨ar, ⟨t1, t2, e1, e2, fun h => (e4 h).1, e3⟩, ?_, Good.all_seen (axiReadRun_good c a length.toNat sz burst rr sync) s⟩
  intro h
  cases har : ar with
  | true => rfl
  | false => exact absurd (e4 har).2 h

example : Legal cfgAx 0x103 (2 : Nat) none .incr 4 ∧ Legal cfgAx 0x103 (2 : Nat) (some 2) .fixed 2 := by
  refine ⟨(axiChecks_ok cfgAx 0x103 2 none .incr 4 2 rfl (by decide)).1 (by decide), (axiChecks_ok cfgAx 0x103 2 (some 2) .fixed 2 2 rfl (by decide)).1 (by decide)⟩

-- AWREADY comes after two cycles
example : let r := axiWrite cfgAx 0x103 [0x11223344, 0x55667788] none .incr [none] 0 0 true (startW [{}, {}, {}, readyIn, readyIn, readyIn, { bvalid := .one }, {}])
    result r = some (.ok ()) ∧ (awStream cfgAx).taken (awTrace r.1) = [addrReq cfgAx 0x103 2 4 .incr] ∧
      (wStream cfgAx).taken (wTrace r.1) = wReqs cfgAx [(0x44000000, 8), (0x88112233, 15)] := by decide +kernel

/-- C55, the part that holds: without data latency, or for a single value, and for every WREADY schedule, exactly the beats of the
burst are transferred, in order, WLAST on the last one only; valid is held until accepted and low after the last; no gaps. What the
beats contain is said by C56 to C58. -/
theorem C55_one_per_beat_partial (c : AxCfg) (hc : Standard c) (a : Nat) (ha : a < 2 ^ c.addrW) (value : List Nat) (size : Option Int) (burst : AxiBurst)
    (be : List (Option Nat)) (hbe : be ≠ [])
    (al dl : Nat) (hd : dl = 0 ∨ value.length = 1) (sync : Bool) (sz : Nat) (hl : Legal c a value.length size burst sz) (s : Sim AxIn (AddrOut × WOut)) (hs : WriteReady sync s) :
    let r := axiWrite c a value size burst be al dl sync s
    ∃ beats done, axiWriteBeats c.dataBytes sz a burst value be = .ok beats ∧ beats.length = value.length ∧
      (wStream c).Burst (wReqs c beats) ((dl + if sync then 1 else 0) :: List.replicate (value.length - 1) 0) (wTrace r.1) done ∧
      (∀ z, result r = some (.ok z) → done = true) := by
  intro r
  have hr : r = axiWriteRun c a value sz burst be al dl sync s := by
    show axiWrite c a value size burst be al dl sync s = _
    rw [axiWrite_legal c hc a value size burst be al dl sync sz hl]
  obtain ⟨h1, h2, h3, k, m, hk, hm, hW⟩ := Legal.facts hl hc ha
  obtain ⟨beats, b1, b2, b3⟩ := axiWriteBeats_ok sz m a h2 hm burst value be hbe
  rw [← hW] at b1 b3
  have hv : value ≠ [] := by rintro rfl; simp at h3
  obtain ⟨done, h4, h5⟩ := axiWriteRun_w c a value sz burst be al dl sync beats b1 (by rintro rfl; exact hv (List.length_eq_zero_iff.1 b2.symm)) b3 (by rw [b2]; exact hd) s hs.1 hs.2.2
  rw [hr, ← b2]
  exact ⟨beats, done, b1, rfl, h4, h5⟩

/-- C55 is false with data latency: WVALID stays high between the beats, so the slave takes the first beat a second time. -/
theorem C55_violated :
    let r := axiWrite cfgAx 0x100 [0x11223344, 0x55667788] none .incr [none] 0 1 true (startW [readyIn, readyIn, readyIn, readyIn, readyIn, { bvalid := .one }, {}])
    result r = some (.ok ()) ∧
      ((wStream cfgAx).taken (wTrace r.1)).map (fun w => (bitsToNat w.data, w.last)) =
        [(0x11223344, some .zero), (0x11223344, some .zero), (0x55667788, some .one)] := by decide +kernel

/-- C55 and C62 for every data latency: a write ends only after its address and all its data have been accepted, where with
latency `dl` each beat but the last may have been transferred up to `dl` times too often; the first response transferred from then
on decides: OKAY lets it return, anything else raises AXIProtocolError with that response. While it still waits for address or data,
what has been transferred is the beginning of such a sequence. -/
theorem C55_any_latency_partial (c : AxCfg) (hc : Standard c) (a : Nat) (ha : a < 2 ^ c.addrW) (value : List Nat) (size : Option Int) (burst : AxiBurst)
    (be : List (Option Nat)) (hbe : be ≠ [])
    (al dl : Nat) (sync : Bool) (sz : Nat) (hl : Legal c a value.length size burst sz) (s : Sim AxIn (AddrOut × WOut)) (hs : WriteReady sync s)
    (hg : ∀ i ∈ s.cur :: s.rest, GoodResp i) :
    let r := axiWrite c a value size burst be al dl sync s
    ∃ t1 t2 beats, r.1 = t1 ++ t2 ∧ axiWriteBeats c.dataBytes sz a burst value be = .ok beats ∧ beats.length = value.length ∧
      ((t2 = [] ∧ result r = none ∧ ∃ m', Stutters dl (wReqs c beats) ((wStream c).taken (wTrace t1) ++ m')) ∨
       ((awStream c).taken (awTrace t1) = [addrReq c a value.length sz burst] ∧ Stutters dl (wReqs c beats) ((wStream c).taken (wTrace t1)) ∧
        (∃ q, t1.getLast? = some q ∧ ((awStream c).xfer (q.1.1, q.2) = true ∨ (wStream c).xfer (q.1.2, q.2) = true)) ∧
        (∀ q ∈ t2, (awStream c).valid q.1.1 = false ∧ (wStream c).valid q.1.2 = false) ∧ WriteResponse t2 (result r))) := by
  intro r
  have hr : r = axiWriteRun c a value sz burst be al dl sync s := by
    show axiWrite c a value size burst be al dl sync s = _
    rw [axiWrite_legal c hc a value size burst be al dl sync sz hl]
  obtain ⟨h1, h2, h3, k, m, hk, hm, hW⟩ := Legal.facts hl hc ha
  obtain ⟨beats, b1, b2, b3⟩ := axiWriteBeats_ok sz m a h2 hm burst value be hbe
  rw [← hW] at b1 b3
  have hv : value ≠ [] := by rintro rfl; simp at h3
  obtain ⟨t1, t2, e1, e2⟩ := axiWriteRun_any c a value sz burst be al dl sync h1 h2 beats b1 (by rintro rfl; exact hv (List.length_eq_zero_iff.1 b2.symm)) b3
    s hs.1 hs.2.1 hs.2.2 hg
  rw [hr]
  exact ⟨t1, t2, beats, e1, b1, b2, e2⟩

/-- C56, the beats: for every width `W = sz * m`, any address, values and byte enables, the beats of an INCR write, stored by an AXI4
memory, change exactly the bytes `a ... a + n * sz - a % sz - 1` that are enabled, byte `j` of value `i` going to `a + i * sz + j`. -/
theorem C56_incr_beats (sz m a : Nat) (hs : 0 < sz) (hm : 0 < m) (value : List Nat) (be : List (Option Nat)) (hbe : be ≠ []) :
    ∃ beats, axiWriteBeats (sz * m) sz a .incr value be = .ok beats ∧ beats.length = value.length ∧
      ∀ mem b, axiStoreAll (sz * m) sz .incr a value.length 0 beats mem b =
        if a ≤ b ∧ b < a + value.length * sz - a % sz ∧ axiEnabled be ((b - a) / sz) ((b - a) % sz) = true
        then byteOf (value.getD ((b - a) / sz) 0) ((b - a) % sz) else mem b := by
  obtain ⟨beats, h1, h2, _, h3⟩ := axiWrite_incr sz m a hs hm value be hbe
  exact ⟨beats, h1, h2, h3⟩

/-- C56, on the bus: after a completed write a memory that has watched the bus contains just that. -/
theorem C56_incr (c : AxCfg) (hc : Standard c) (hfull : c.full = true) (a : Nat) (ha : a < 2 ^ c.addrW) (value : List Nat) (size : Option Int) (be : List (Option Nat)) (hbe : be ≠ [])
    (al dl : Nat) (hd : dl = 0 ∨ value.length = 1) (sync : Bool) (sz : Nat) (hl : Legal c a value.length size .incr sz) (s : Sim AxIn (AddrOut × WOut)) (hs : WriteReady sync s)
    (hok : result (axiWrite c a value size .incr be al dl sync s) = some (.ok ())) (mem : Nat → Byte) (b : Nat) :
    busStore c (axiWrite c a value size .incr be al dl sync s).1 mem b =
      if a ≤ b ∧ b < a + value.length * sz - a % sz ∧ axiEnabled be ((b - a) / sz) ((b - a) % sz) = true
      then byteOf (value.getD ((b - a) / sz) 0) ((b - a) % sz) else mem b := by
  obtain ⟨h1, h2, h3, k, m, hk, hm, hW⟩ := Legal.facts hl hc ha
  obtain ⟨acc, c1, c2, _⟩ := C54_write c hc a ha value size .incr be al dl sync sz hl s hs
  obtain ⟨beats, done, d1, d2, d3, d4⟩ := C55_one_per_beat_partial c hc a ha value size .incr be hbe al dl hd sync sz hl s hs
  rw [c2 _ hok] at c1
  rw [d4 _ hok] at d3
  obtain ⟨beats', e1, e2, e3, e4⟩ := axiWrite_incr sz m a h2 hm value be hbe
  rw [← hW] at e1 e3 e4
  have : beats' = beats := by rw [d1] at e1; injection e1 with e1; exact e1.symm
  subst this
  rw [busStore_eq c a value.length sz k .incr h1 hk h3 (by simp [hfull]) beats' e3 _ (Stream.Once.taken_eq c1) (Stream.Burst.taken_eq d3)]
  exact e4 mem b

example : ∃ beats, axiWriteBeats 8 4 2 .incr [0x11223344, 0x55667788] [none, some 0b0111] = .ok beats ∧
    (List.range 12).map (axiStoreAll 8 4 .incr 2 2 0 beats (fun _ => 0)) = [0, 0, 0x44, 0x33, 0x22, 0x11, 0x88, 0x77, 0, 0, 0, 0] := ⟨_, rfl, by decide +kernel⟩

/-- C57: every beat of a FIXED write changes exactly the enabled bytes of `a ... a + sz - a % sz - 1`, byte `j` of value `i` going to `a + j`. -/
theorem C57_fixed_beats (sz m a : Nat) (hs : 0 < sz) (hm : 0 < m) (value : List Nat) (be : List (Option Nat)) (hbe : be ≠ []) :
    ∃ beats, axiWriteBeats (sz * m) sz a .fixed value be = .ok beats ∧ beats.length = value.length ∧
      ∀ i beat, beats[i]? = some beat → ∀ mem b, axiStore (sz * m) (beatAddr sz .fixed a value.length i) beat mem b =
        if a ≤ b ∧ b < a + sz - a % sz ∧ axiEnabled be i (b - a) = true then byteOf (value.getD i 0) (b - a) else mem b := by
  obtain ⟨beats, h1, h2, _, h3⟩ := axiWrite_fixed sz m a hs hm value be hbe
  exact ⟨beats, h1, h2, h3⟩

/-- C57, on the bus: the beats transferred by a completed FIXED write do that. -/
theorem C57_fixed (c : AxCfg) (hc : Standard c) (a : Nat) (ha : a < 2 ^ c.addrW) (value : List Nat) (size : Option Int) (be : List (Option Nat)) (hbe : be ≠ [])
    (al dl : Nat) (hd : dl = 0 ∨ value.length = 1) (sync : Bool) (sz : Nat) (hl : Legal c a value.length size .fixed sz) (s : Sim AxIn (AddrOut × WOut)) (hs : WriteReady sync s)
    (hok : result (axiWrite c a value size .fixed be al dl sync s) = some (.ok ())) :
    let ws := (wStream c).taken (wTrace (axiWrite c a value size .fixed be al dl sync s).1)
    (awStream c).taken (awTrace (axiWrite c a value size .fixed be al dl sync s).1) = [addrReq c a value.length sz .fixed] ∧ ws.length = value.length ∧
    ∀ (i : Nat) w, ws[i]? = some w → ∀ mem b, axiStore c.dataBytes (beatAddr sz .fixed a value.length i) (bitsToNat w.data, bitsToNat w.strb) mem b =
      if a ≤ b ∧ b < a + sz - a % sz ∧ axiEnabled be i (b - a) = true then byteOf (value.getD i 0) (b - a) else mem b := by
  intro ws
  obtain ⟨h1, h2, h3, k, m, hk, hm, hW⟩ := Legal.facts hl hc ha
  obtain ⟨acc, c1, c2, _⟩ := C54_write c hc a ha value size .fixed be al dl sync sz hl s hs
  obtain ⟨beats, done, d1, d2, d3, d4⟩ := C55_one_per_beat_partial c hc a ha value size .fixed be hbe al dl hd sync sz hl s hs
  rw [c2 _ hok] at c1
  rw [d4 _ hok] at d3
  obtain ⟨beats', e1, e2, e3, e4⟩ := axiWrite_fixed sz m a h2 hm value be hbe
  rw [← hW] at e1 e3 e4
  have : beats' = beats := by rw [d1] at e1; injection e1 with e1; exact e1.symm
  subst this
  have hws : ws = wReqs c beats' := Stream.Burst.taken_eq d3
  refine ⟨Stream.Once.taken_eq c1, by rw [hws, wReqs_length, e2], ?_⟩
  intro i w hw mem b
  have hd := congrArg (fun l => l[i]?) (wReqs_decode c beats' e3)
  simp only [List.getElem?_map] at hd
  rw [hws] at hw
  rw [hw] at hd
  exact e4 i _ hd.symm mem b

example : ∃ beats, axiWriteBeats 8 4 1 .fixed [0x11223344, 0x55667788] [none] = .ok beats ∧
    beats = [(0x22334400, 0b1110), (0x66778800, 0b1110)] := ⟨_, rfl, by decide +kernel⟩

/-- C58, the part that holds for writes: if the burst is at least as long as the bus is wide (so that wrapping is also the
wrapping of the byte lanes) or starts at the boundary (so that it does not wrap), every beat of a WRAP write changes exactly the enabled bytes at the wrapping address of that beat. -/
theorem C58_wrap_write_partial (sz m a : Nat) (hs : 0 < sz) (hm : 0 < m) (value : List Nat) (be : List (Option Nat)) (hbe : be ≠ [])
    (hal : a % sz = 0) (hfull : m ∣ value.length ∨ a % (sz * value.length) = 0) :
    ∃ beats, axiWriteBeats (sz * m) sz a .wrap value be = .ok beats ∧ beats.length = value.length ∧
      ∀ i beat, beats[i]? = some beat → ∀ mem b, axiStore (sz * m) (beatAddr sz .wrap a value.length i) beat mem b =
        if beatAddr sz .wrap a value.length i ≤ b ∧ b < beatAddr sz .wrap a value.length i + sz ∧
            axiEnabled be i (b - beatAddr sz .wrap a value.length i) = true
        then byteOf (value.getD i 0) (b - beatAddr sz .wrap a value.length i) else mem b := by
  obtain ⟨beats, h1, h2, _, h3⟩ := axiWrite_wrap sz m a hs hm value be hbe hal hfull
  exact ⟨beats, h1, h2, h3⟩

/-- C58, the part that holds for reads. -/
theorem C58_wrap_read_partial (sz m a len : Nat) (hs : 0 < sz) (hm : 0 < m) (mem : Nat → LogicArray) (rdata : List LogicArray)
    (hal : a % sz = 0) (hfull : m ∣ len ∨ a % (sz * len) = 0) (h : AxiAnswers (sz * m) sz .wrap a len (fun _ => mem) rdata) :
    ∃ ws, axiSlices (sz * m) sz .wrap (a % (sz * m) / sz * sz) rdata = .ok ws ∧ ws.length = len ∧
      axiReadWords sz a .wrap ws = .ok ((List.range len).map (fun i => memWord mem (beatAddr sz .wrap a len i) sz)) :=
  axiRead_wrap sz m a len hs hm mem rdata hal hfull h

example : ∃ beats, axiWriteBeats 4 2 6 .wrap [0x1122, 0x3344, 0x5566, 0x7788] [none] = .ok beats ∧
    (List.range 8).map (axiStoreAll 4 2 .wrap 6 4 0 beats (fun _ => 0)) = [0x44, 0x33, 0x66, 0x55, 0x88, 0x77, 0x22, 0x11] := ⟨_, rfl, by decide +kernel⟩

/-- C58 for writes: all other aligned WRAP bursts go wrong, whatever the values and byte enables: some beat changes none of the bytes it
addresses (`m`, the number of beats that fill the bus, and the number of values are powers of two, so `m` divides it or exceeds it). -/
theorem C58_short_write (sz m a : Nat) (hs : 0 < sz) (value : List Nat) (be : List (Option Nat)) (hbe : be ≠ []) (hv : value ≠ [])
    (hal : a % sz = 0) (hshort : value.length < m) (hstart : a % (sz * value.length) ≠ 0) :
    ∃ beats i beat, axiWriteBeats (sz * m) sz a .wrap value be = .ok beats ∧ beats[i]? = some beat ∧
      ∀ mem b, InBeat sz .wrap a value.length i b → axiStore (sz * m) (beatAddr sz .wrap a value.length i) beat mem b = mem b :=
  axiWrite_wrap_short sz m a hs value be hbe (List.length_pos_iff.2 hv) hal hshort hstart

/-- C58 for reads: all other aligned WRAP bursts go wrong: some word returned consists of byte lanes none of which is that of a byte
addressed by its beat. -/
theorem C58_short_read (sz m a len : Nat) (hs : 0 < sz) (hlen : 0 < len) (rdata : List LogicArray) (hal : a % sz = 0) (hshort : len < m) (hstart : a % (sz * len) ≠ 0)
    (h1 : rdata.length = len) (h2 : ∀ v ∈ rdata, v.length = 8 * (sz * m)) :
    ∃ ws i v l, axiSlices (sz * m) sz .wrap (a % (sz * m) / sz * sz) rdata = .ok ws ∧ axiReadWords sz a .wrap ws = .ok ws ∧
      rdata[i]? = some v ∧ ws[i]? = some (memWord (lane v) l sz) ∧ ∀ b, InBeat sz .wrap a len i b → ¬ (l ≤ b % (sz * m) ∧ b % (sz * m) < l + sz) :=
  axiRead_wrap_short sz m a len hs rdata hlen hal hshort hstart h1 h2

-- a bus of 8 bytes, two beats of 2 bytes: from the boundary at address 4 all is well
example : ∃ beats, axiWriteBeats 8 2 4 .wrap [0x1122, 0x3344] [none] = .ok beats ∧
    (List.range 8).map (axiStoreAll 8 2 .wrap 4 2 0 beats (fun _ => 0)) = [0, 0, 0, 0, 0x22, 0x11, 0x44, 0x33] := ⟨_, rfl, by decide +kernel⟩

/-- C58 is false for bursts shorter than the bus is wide: two beats of 2 bytes at address 2 of a bus of 8 bytes wrap from 4 to 0, but
the second value is put on the lanes of address 4. -/
theorem C58_violated :
    ∃ beats, axiWriteBeats 8 2 2 .wrap [0x1122, 0x3344] [none] = .ok beats ∧ beatAddr 2 .wrap 2 2 1 = 0 ∧
      beats[1]? = some (0x334400000000, 0b110000) ∧
      (List.range 8).map (axiStoreAll 8 2 .wrap 2 2 0 beats (fun _ => 0)) = [0, 0, 0x22, 0x11, 0x44, 0x33, 0, 0] := ⟨_, rfl, by decide +kernel⟩

end CocotbBus
