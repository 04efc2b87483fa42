import Verif.Proof.AxiTests
import Verif.Props.AxiUse
import Verif.Props.AxiWrite

/-! # C127: the AXI4 tests pass on every memory -/

namespace CocotbBus
open Spec Coro

/-- C127: a test of the master that draws aligned addresses, values that fit and bursts in one page never fails on a good memory, whatever else it draws, whatever is in
the memory and whatever its latencies: no call raises, and if the test is through, the last read has returned the expected words. -/
theorem C127_passes (c : AxCfg) (hc : Standard c) (t : AxTest) (hd : AxTest.Drawn c t) (hr : AxTest.InRange c t) (mem : Nat → Byte) (s : Sim AxIn AxAll)
    (hs : s.phase ≠ .ro ∧ s.out.1.1.valid = .zero ∧ s.out.1.2.valid = .zero ∧ s.out.2.valid = .zero)
    (hg : ∀ i ∈ s.cur :: s.rest, GoodBeat c.dataBytes i ∧ GoodResp i) :
    let r := axUse c (t.ops c) s
    AxMem.Serves c (AxMem.idle allOkay 0 mem) r.2.1 → (∀ e, result r.2 ≠ some (.error e)) ∧ (∀ x ∈ r.1, ∃ l, x = .ok l) ∧
      (result r.2 = some (.ok ()) → AxTest.Passes c t r.1) := by
  intro r hserve
  have hops := tests_legal c hc t hd hr
  obtain ⟨⟨later, h1⟩, h2, h3⟩ := C100_memory_partial c hc (t.ops c) hops mem s hs hg hserve
  refine ⟨h2, ?_, ?_⟩
  · intro x hx
    have : x ∈ (axReads c (t.ops c) mem).map .ok := by
      rw [← h1]
      exact List.mem_append_left _ hx
    obtain ⟨l, -, rfl⟩ := List.mem_map.1 this
    exact ⟨l, rfl⟩
  · intro h
    rw [show r.1 = _ from (h3 h).1]
    exact tests_pass c hc t hops hd mem

/-- C127, with deadlines: if the memory does everything that is due within `N` clock edges and the clock runs long enough, the test passes, within that many edges. -/
theorem C127_completes (c : AxCfg) (hc : Standard c) (N : Nat) (t : AxTest) (hd : AxTest.Drawn c t) (hr : AxTest.InRange c t) (mem : Nat → Byte) (s : Sim AxIn AxAll)
    (hs : s.phase ≠ .ro ∧ s.out.1.1.valid = .zero ∧ s.out.1.2.valid = .zero ∧ s.out.2.valid = .zero)
    (hg : ∀ i ∈ s.cur :: s.rest, GoodBeat c.dataBytes i ∧ GoodResp i) (hlen : ((t.ops c).map (axCost N)).sum ≤ s.rest.length) :
    let r := axUse c (t.ops c) s
    AxMem.Serves c (AxMem.idle allOkay 0 mem) r.2.1 → AxMem.Prompt N c (AxMem.idle allOkay 0 mem) AxWait.zero r.2.1 →
      result r.2 = some (.ok ()) ∧ AxTest.Passes c t r.1 ∧ r.2.1.length ≤ ((t.ops c).map (axCost N)).sum := by
  intro r hserve hprompt
  have hops := tests_legal c hc t hd hr
  obtain ⟨h1, h2, h3⟩ := C100_returns_partial c hc N (t.ops c) hops mem s hs hg hlen hserve hprompt
  refine ⟨h1, ?_, h3⟩
  rw [show r.1 = _ from h2]
  exact tests_pass c hc t hops hd mem

/-- C127, unmapped addresses: a slave that answers every beat with DECERR (3) makes both calls raise that error, and nothing else is raised. -/
theorem C127_unmapped (c : AxCfg) (hc : Standard c) (a a' v : Nat) (ha : a < 2 ^ c.addrW) (ha' : a' < 2 ^ c.addrW) (hp : a % 4096 + 2 * c.dataBytes ≤ 4096)
    (hp' : a' % 4096 + 2 * c.dataBytes ≤ 4096) (mem : Nat → Byte) (s : Sim AxIn AxAll)
    (hs : s.phase ≠ .ro ∧ s.out.1.1.valid = .zero ∧ s.out.1.2.valid = .zero ∧ s.out.2.valid = .zero)
    (hg : ∀ i ∈ s.cur :: s.rest, GoodBeat c.dataBytes i ∧ GoodResp i) :
    let r := axUse c (unmappedOps c a a' v) s
    AxMem.Serves c (AxMem.idle (fun _ _ => 3) 0 mem) r.2.1 → (∀ e, result r.2 ≠ some (.error e)) ∧
      (result r.2 = some (.ok ()) → r.1 = [.error (.axiProtocol 3), .error (.axiProtocol 3)]) := by
  intro r hserve
  have hops : ∀ op ∈ unmappedOps c a a' v, AxOpOk c op := by
    unfold unmappedOps
    cases hf : c.full with
    | false =>
      simp only [Bool.false_eq_true, if_false, List.forall_mem_cons]
      exact ⟨⟨hf, ha⟩, ⟨hf, ha'⟩, fun _ h => by cases h⟩
    | true =>
      simp only [if_true, List.forall_mem_cons]
      have hl : ∀ x, x % 4096 + 2 * c.dataBytes ≤ 4096 → Legal c x 2 none .incr (bytesPerBeat c none) := by
        intro x hx
        refine ⟨rfl, ⟨by decide, by decide⟩, fun _ => ?_⟩
        obtain ⟨⟨j, hj, hW⟩, -⟩ := hc
        rw [hW] at hx
        rw [show bytesPerBeat c none = 2 ^ j from hW]
        exact onePage_fits j x 0 2 (by omega) (Nat.two_pow_pos j) (by decide) hx
      exact ⟨⟨hf, ha, hl a hp, fun h => by cases h⟩, ⟨hf, ha', by decide, .inl rfl, hl a' hp', fun h => by cases h⟩, fun _ h => by cases h⟩
  obtain ⟨-, h2, h3⟩ := C102_usable_partial c hc _ hops (fun _ _ => 3) mem s hs hg hserve
  refine ⟨h2, fun h => ?_⟩
  rw [show r.1 = _ from (h3 h).1]
  unfold unmappedOps
  cases c.full <;> rfl

/-- C127, illegal operations: each of them raises ValueError at once, on the read and on the write side, on every data bus but one of two bytes (there a beat of
`data_width - 1` bytes is legal). -/
theorem C127_refused (c : AxCfg) (hc : Standard c) (hW : c.dataBytes ≠ 2) (a : Nat) (burst : AxiBurst) (length : Int) (size : Option Int)
    (h : (burst, length, size) ∈ illegalOps c.dataBytes) (s : Sim AxIn AxAll) :
    axStep c (.read a length size burst true) s = ([], .err .valueError s) ∧
    (∀ vs : List Nat, vs.length = length.toNat → axStep c (.write a vs size burst [none] 0 0 true) s = ([], .err .valueError s)) := by
  have hsz : ∀ k : Nat, (2 ^ k : Int) ≠ -1 := fun k hk => by
    have := Int.pow_pos (n := 2) (m := k) (by decide)
    rw [hk] at this
    exact absurd this (by decide)
  have hno : ∀ l : Int, l = length ∨ l = length.toNat → ¬ ∃ sz, Legal c a l size burst sz := by
    rintro l hl ⟨sz, h1, h2, -⟩
    obtain ⟨⟨j, hj, hj2⟩, -⟩ := hc
    simp only [illegalOps, List.mem_cons, Prod.mk.injEq, List.not_mem_nil, or_false] at h
    rcases h with ⟨rfl, rfl, rfl⟩ | ⟨rfl, rfl, rfl⟩ | ⟨rfl, rfl, rfl⟩ | ⟨rfl, rfl, rfl⟩ | ⟨rfl, rfl, rfl⟩ | ⟨rfl, rfl, rfl⟩ | ⟨rfl, rfl, rfl⟩ | ⟨rfl, rfl, rfl⟩
    · have := h2.1; omega
    · have := h2.1; omega
    · have := h2.2; omega
    · have := h2.2; omega
    · have : l = 1 ∨ l = 2 ∨ l = 4 ∨ l = 8 ∨ l = 16 := h2
      omega
    · obtain ⟨⟨k, hk, -⟩, -⟩ := h1
      exact hsz k hk.symm
    · obtain ⟨⟨k, hk, -⟩, -⟩ := h1
      rw [hj2] at hk hW
      have hk' : 2 ^ j = 2 ^ k + 1 := by
        have := Nat.two_pow_pos j
        have e : ((2 ^ j : Nat) : Int) = ((2 ^ k + 1 : Nat) : Int) := by push_cast; push_cast at hk; omega
        exact Int.ofNat_inj.1 e
      cases k with
      | zero => exact hW hk'
      | succ k =>
        cases j with
        | zero => have := Nat.two_pow_pos k; rw [Nat.pow_succ] at hk'; omega
        | succ j => rw [Nat.pow_succ, Nat.pow_succ] at hk'; omega
    · obtain ⟨⟨k, hk, hk2⟩, -⟩ := h1
      rw [hj2] at hk hk2
      have e : ((2 ^ j * 2 : Nat) : Int) = ((2 ^ k : Nat) : Int) := by push_cast; push_cast at hk; omega
      have := Int.ofNat_inj.1 e
      have := Nat.two_pow_pos j
      omega
  have hx := C53_illegal_partial c hc a size burst
  refine ⟨?_, ?_⟩
  · have := hx.2 length false true ⟨s.phase, s.out.2, s.prev, s.cur, s.rest⟩ (hno length (.inl rfl))
    simp only [axStep, onRead, bind_run]
    rw [this]
    rfl
  · intro vs hv
    have := hx.1 vs [none] 0 0 true ⟨s.phase, s.out.1, s.prev, s.cur, s.rest⟩ (hno vs.length (.inr (by rw [hv])))
    simp only [axStep, onWrite, bind_run]
    rw [this]
    rfl

/-- C127, the 4 kB boundary: a burst of words that starts `k` words before the end of a page and is more than `k` words long raises ValueError at once. -/
theorem C127_crossing (c : AxCfg) (hc : Standard c) (base k length : Nat) (hb : base % 4096 = 0) (hk : 1 ≤ k) (hkl : k < length) (hkb : k * c.dataBytes ≤ base) (s : Sim AxIn AxAll) :
    axStep c (.read (base - k * c.dataBytes) length none .incr true) s = ([], .err .valueError s) ∧
    (∀ vs : List Nat, vs.length = length → axStep c (.write (base - k * c.dataBytes) vs none .incr [none] 0 0 true) s = ([], .err .valueError s)) := by
  have hno : ¬ ∃ sz, Legal c (base - k * c.dataBytes) length none .incr sz := by
    rintro ⟨sz, h1, -, h3⟩
    have h1 : sz = c.dataBytes := h1
    subst h1
    have h3 := h3 rfl
    obtain ⟨⟨j, hj, hW⟩, -⟩ := hc
    have hW0 : 0 < c.dataBytes := by rw [hW]; exact Nat.two_pow_pos j
    obtain ⟨q, hq⟩ := dvd_4096 j 12 (Nat.pow_le_pow_right (by decide) (by omega)) (Nat.le_refl _)
    have hal : (base - k * c.dataBytes) % c.dataBytes = 0 := by
      apply Nat.mod_eq_zero_of_dvd
      refine Nat.dvd_sub ?_ (Nat.dvd_mul_left _ _)
      refine Nat.dvd_trans ?_ (Nat.dvd_of_mod_eq_zero hb)
      rw [hW]
      exact ⟨q, hq.symm⟩
    have hal2 : (base - k * c.dataBytes) / c.dataBytes * c.dataBytes = base - k * c.dataBytes := by
      have := Nat.div_add_mod (base - k * c.dataBytes) c.dataBytes
      rw [hal, Nat.mul_comm] at this
      exact this
    have hbeat : InBeat c.dataBytes .incr (base - k * c.dataBytes) (length : Int).toNat k base := by
      unfold InBeat beatAddr alignedAddr
      simp only [if_neg (show k ≠ 0 by omega), hal2, Nat.sub_add_cancel hkb]
      have := Nat.lt_div_mul_add (a := base) hW0
      exact ⟨Nat.le_refl _, this⟩
    have h4 := h3 k (by rw [Int.toNat_natCast]; exact hkl) base hbeat
    have h5 : 0 < k * c.dataBytes := Nat.mul_pos hk hW0
    omega
  have hx := C53_illegal_partial c hc (base - k * c.dataBytes) none .incr
  refine ⟨?_, ?_⟩
  · have := hx.2 length false true ⟨s.phase, s.out.2, s.prev, s.cur, s.rest⟩ hno
    simp only [axStep, onRead, bind_run]
    rw [this]
    rfl
  · intro vs hv
    have := hx.1 vs [none] 0 0 true ⟨s.phase, s.out.1, s.prev, s.cur, s.rest⟩ (by rw [hv]; exact hno)
    simp only [axStep, onWrite, bind_run]
    rw [this]
    rfl

/-! ### Instances -/

/-- two words, of which the strobe 0101 enables the bytes 0 and 2 -/
def incrTest : AxTest := .incr 0x100 [0x44332211, 0x88776655] [5] none

def incrSched : List AxIn :=
  [{}, readyIn, rIn 0xAAAAAAAA 0 .zero, rIn 0xAAAAAAAA 0 .one, {}, readyIn, readyIn, readyIn, bIn, {}, readyIn, rIn 0xAA33AA11 0 .zero, {}, rIn 0xAA77AA55 0 .one] ++
  List.replicate 26 ({} : AxIn)

attribute [local irreducible] AxMem.Serves AxMem.Prompt

example : let r := axUse cfgAx (incrTest.ops cfgAx) (startAx incrSched)
    AxTest.Drawn cfgAx incrTest ∧ AxTest.InRange cfgAx incrTest ∧ (∀ i ∈ (startAx incrSched).cur :: (startAx incrSched).rest, GoodBeat 4 i ∧ GoodResp i) ∧
    ((incrTest.ops cfgAx).map (axCost 4)).sum ≤ (startAx incrSched).rest.length ∧
    AxMem.Serves cfgAx (AxMem.idle allOkay 0 (fun _ => 0xAA)) r.2.1 ∧ AxMem.Prompt 4 cfgAx (AxMem.idle allOkay 0 (fun _ => 0xAA)) AxWait.zero r.2.1 ∧
    r.1.map intsOf = [some [0xAAAAAAAA, 0xAAAAAAAA], some [], some [0xAA33AA11, 0xAA77AA55]] := by
  intro r
  have h1 : ((startAx incrSched).cur :: (startAx incrSched).rest).all (goodB 4) = true := by decide +kernel
  have h2 : AxMem.servesB cfgAx (AxMem.idle allOkay 0 (fun _ => 0xAA)) r.2.1 = true := by decide +kernel
  have h3 : AxMem.promptB 4 cfgAx (AxMem.idle allOkay 0 (fun _ => 0xAA)) AxWait.zero r.2.1 = true := by decide +kernel
  exact ⟨⟨by decide, by decide, by decide⟩, ⟨rfl, rfl, by decide, by decide, by decide, by decide⟩, fun i hi => good_of_goodB (List.all_eq_true.1 h1 i hi), by decide +kernel,
    AxMem.serves_of_servesB cfgAx r.2.1 (AxMem.idle allOkay 0 (fun _ => 0xAA)) h2,
    AxMem.prompt_of_promptB 4 cfgAx r.2.1 (AxMem.idle allOkay 0 (fun _ => 0xAA)) AxWait.zero h3, by decide +kernel⟩

/-- a word, and two words one byte behind -/
def unalignedTest : AxTest := .writeUnaligned .incr 0x100 1 0x44332211 [0x88776655, 0xFFEEDD] none

def unalignedSched : List AxIn :=
  [{}, readyIn, readyIn, bIn, {}, readyIn, readyIn, readyIn, bIn, {}, readyIn, rIn 0x77665511 0 .zero, {}, rIn 0xFFEEDD88 0 .one, {}, {}]

example : let r := axUse cfgAx (unalignedTest.ops cfgAx) (startAx unalignedSched)
    AxTest.Drawn cfgAx unalignedTest ∧ AxTest.InRange cfgAx unalignedTest ∧ AxMem.Serves cfgAx (AxMem.idle allOkay 0 (fun _ => 0xAA)) r.2.1 ∧
    result r.2 = some (.ok ()) ∧ r.1.map intsOf = [some [], some [], some [0x77665511, 0xFFEEDD88]] := by
  intro r
  have h2 : AxMem.servesB cfgAx (AxMem.idle allOkay 0 (fun _ => 0xAA)) r.2.1 = true := by decide +kernel
  exact ⟨⟨by decide, by decide, by decide⟩, ⟨rfl, rfl, ⟨by decide, by decide⟩, fun _ => by decide, by decide⟩,
    AxMem.serves_of_servesB cfgAx r.2.1 (AxMem.idle allOkay 0 (fun _ => 0xAA)) h2, by decide +kernel, by decide +kernel⟩

-- a slave that knows none of the addresses
example : let s := startAx [{}, readyIn, rIn 0 3 .zero, rIn 0 3 .one, {}, readyIn, readyIn, readyIn, { bIn with bresp := natToBits 2 3 }, {}, {}]
    let r := axUse cfgAx (unmappedOps cfgAx 0x200 0x304 7) s
    AxMem.Serves cfgAx (AxMem.idle (fun _ _ => 3) 0 (fun _ => 0)) r.2.1 ∧ result r.2 = some (.ok ()) ∧ r.1 = [.error (.axiProtocol 3), .error (.axiProtocol 3)] := by
  intro s r
  have h2 : AxMem.servesB cfgAx (AxMem.idle (fun _ _ => 3) 0 (fun _ => 0)) r.2.1 = true := by decide +kernel
  exact ⟨AxMem.serves_of_servesB cfgAx r.2.1 (AxMem.idle (fun _ _ => 3) 0 (fun _ => 0)) h2, by decide +kernel, by decide +kernel⟩

-- on a bus of two bytes `data_width - 1` is the legal size 1
example : (AxiBurst.incr, (4 : Int), some (2 - 1 : Int)) ∈ illegalOps 2 ∧ Legal { addrW := 16, dataBytes := 2 } 0x100 4 (some (2 - 1)) .incr 1 :=
  ⟨by decide, (axiChecks_ok { addrW := 16, dataBytes := 2 } 0x100 4 (some (2 - 1)) .incr 1 1 rfl (by decide)).1 (by decide)⟩

-- three words of four from the last two on
example : (8192 : Nat) % 4096 = 0 ∧ (1 : Nat) ≤ 2 ∧ 2 < 3 ∧ 2 * cfgAx.dataBytes ≤ 8192 := by decide

end CocotbBus
