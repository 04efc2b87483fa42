import Verif.Proof.AxiTry
import Verif.Props.AxiUse
import Verif.Props.Len

/-! # C130: an AXI4 master after a call that raised; C128 for its writes -/

namespace CocotbBus
open Spec Coro

-- the elaborator would unfold it on the whole trace
attribute [local irreducible] AxMem.Serves AxMem.Prompt

/-- C130 is false: after a write whose address does not fit (OverflowError) the memory stores the data of that write with the next write,
which returns without complaint. -/
theorem C130_violated :
    let ops := [.write 0x10000 [0x11] none .incr [none] 0 0 true, .write 0x100 [0x22] none .incr [none] 0 0 true, .read 0x100 1 none .incr true]
    let s := startAx [{}, {}, { wready := .one }, {}, { awready := .one }, { wready := .one }, bIn, {}, readyIn, rIn 0x11 0 .one, {}]
    let r := axTry cfgAx ops s
    (s.phase ≠ .ro ∧ s.out.1.1.valid = .zero ∧ s.out.1.2.valid = .zero ∧ s.out.2.valid = .zero) ∧
    (∀ i ∈ s.cur :: s.rest, GoodBeat 4 i ∧ GoodResp i) ∧
    AxMem.Serves cfgAx (AxMem.idle allOkay 0 (fun _ => 0)) r.2.1 ∧ result r.2 = some (.ok ()) ∧
    r.1 = [.error .overflowError, .ok [], .ok [natToBits 32 0x11]] := by
  intro ops s r
  have h1 : (s.cur :: s.rest).all (goodB 4) = true := by decide +kernel
  have h2 : AxMem.servesB cfgAx (AxMem.idle allOkay 0 (fun _ => 0)) r.2.1 = true := by decide +kernel
  exact ⟨by decide, fun i hi => good_of_goodB (List.all_eq_true.1 h1 i hi), AxMem.serves_of_servesB cfgAx r.2.1 (AxMem.idle allOkay 0 (fun _ => 0)) h2,
    by decide +kernel, by decide +kernel⟩

/-- C130 is false for an empty `byte_enable` (IndexError), too: the data of the next write are stored at the address of the write that
raised, 0x200, and not at its own. -/
theorem C130_violated_enable :
    let ops := [.write 0x200 [0x11] none .incr [] 0 0 true, .write 0x100 [0x22] none .incr [none] 0 0 true, .read 0x100 1 none .incr true, .read 0x200 1 none .incr true]
    let s := startAx [{}, { awready := .one }, {}, {}, { wready := .one }, { awready := .one }, bIn, {}, readyIn, rIn 0 0 .one, {}, readyIn, rIn 0x22 0 .one, {}]
    let r := axTry cfgAx ops s
    (s.phase ≠ .ro ∧ s.out.1.1.valid = .zero ∧ s.out.1.2.valid = .zero ∧ s.out.2.valid = .zero) ∧
    (∀ i ∈ s.cur :: s.rest, GoodBeat 4 i ∧ GoodResp i) ∧
    AxMem.Serves cfgAx (AxMem.idle allOkay 0 (fun _ => 0)) r.2.1 ∧ result r.2 = some (.ok ()) ∧
    r.1 = [.error .indexError, .ok [], .ok [natToBits 32 0], .ok [natToBits 32 0x22]] := by
  intro ops s r
  have h1 : (s.cur :: s.rest).all (goodB 4) = true := by decide +kernel
  have h2 : AxMem.servesB cfgAx (AxMem.idle allOkay 0 (fun _ => 0)) r.2.1 = true := by decide +kernel
  exact ⟨by decide, fun i hi => good_of_goodB (List.all_eq_true.1 h1 i hi), AxMem.serves_of_servesB cfgAx r.2.1 (AxMem.idle allOkay 0 (fun _ => 0)) h2,
    by decide +kernel, by decide +kernel⟩

/-- C130, partial: any sequence of calls of an AXI4 or AXI4-Lite master on a bus with a memory that may refuse any of them, where the test
catches all exceptions and goes on, and where some of the calls are rejected by the master: with ValueError because the arguments are not
legal, or, reads, with OverflowError because the address is too large. Every rejected call raises that exception; everything else is as if
the rejected calls had not been made: what the other calls return or raise, and what the memory contains at the end. Missing: writes
whose address is too large or whose `byte_enable` is empty (`C130_violated`, `C130_violated_enable`). -/
theorem C130_rejected_partial (c : AxCfg) (hc : Standard c) (calls : List AxCall) (hcalls : ∀ q ∈ calls, CallOk c q) (code : Nat → Nat → Nat) (mem : Nat → Byte)
    (s : Sim AxIn AxAll) (hs : s.phase ≠ .ro ∧ s.out.1.1.valid = .zero ∧ s.out.1.2.valid = .zero ∧ s.out.2.valid = .zero)
    (hg : ∀ i ∈ s.cur :: s.rest, GoodBeat c.dataBytes i ∧ GoodResp i) :
    let r := axTry c (calls.map Prod.fst) s
    AxMem.Serves c (AxMem.idle code 0 mem) r.2.1 →
      (∃ later, r.1 ++ later = weave calls (axOutcomes c code 0 (accepted calls) mem)) ∧
      (∀ e, result r.2 ≠ some (.error e)) ∧
      (result r.2 = some (.ok ()) → r.1 = weave calls (axOutcomes c code 0 (accepted calls) mem) ∧
        AxMem.run c (AxMem.idle code 0 mem) r.2.1 = AxMem.idle code ((accepted calls).map axRequests).sum (axLast c code 0 (accepted calls) mem)) := by
  intro r hserve
  have e0 : r.2 = (axUse c (calls.map plain) s).2 := axTry_serves c hc calls hcalls code 0 mem s hs hg hserve
  rw [e0] at hserve
  obtain ⟨⟨l, h1⟩, h2, h3⟩ := C102_usable_partial c hc (calls.map plain) (plain_ok c calls hcalls) code mem s hs hg hserve
  have e1 : r = _ := axTry_calls c hc calls hcalls s (fun e s' he => h2 e (by unfold result; rw [he]))
  obtain ⟨w1, w2⟩ := weave_plain c code calls 0 mem
  refine ⟨⟨List.zipWith reported (calls.drop (axUse c (calls.map plain) s).1.length) l, ?_⟩, by rw [e0]; exact h2, fun hr => ?_⟩
  · rw [e1, zipWith_prefix, h1, w1]
  · rw [e0] at hr
    obtain ⟨g1, g2⟩ := h3 hr
    refine ⟨by rw [e1, g1, w1], ?_⟩
    rw [e0, g2, requests_plain, w2]

/-- C130, partial, with deadlines: if the memory does everything that is due within `N` clock edges, and the clock runs for as many edges as
the calls need then, every call returns or raises; a rejected call needs at most one edge. -/
theorem C130_returns_partial (c : AxCfg) (hc : Standard c) (N : Nat) (calls : List AxCall) (hcalls : ∀ q ∈ calls, CallOk c q) (code : Nat → Nat → Nat) (mem : Nat → Byte)
    (s : Sim AxIn AxAll) (hs : s.phase ≠ .ro ∧ s.out.1.1.valid = .zero ∧ s.out.1.2.valid = .zero ∧ s.out.2.valid = .zero)
    (hg : ∀ i ∈ s.cur :: s.rest, GoodBeat c.dataBytes i ∧ GoodResp i) (hlen : (calls.map (callCost N)).sum ≤ s.rest.length) :
    let r := axTry c (calls.map Prod.fst) s
    AxMem.Serves c (AxMem.idle code 0 mem) r.2.1 → AxMem.Prompt N c (AxMem.idle code 0 mem) AxWait.zero r.2.1 →
      result r.2 = some (.ok ()) ∧ r.1 = weave calls (axOutcomes c code 0 (accepted calls) mem) ∧ r.2.1.length ≤ (calls.map (callCost N)).sum := by
  intro r hserve hp
  have e0 : r.2 = (axUse c (calls.map plain) s).2 := axTry_serves c hc calls hcalls code 0 mem s hs hg hserve
  have hser := hserve
  rw [e0] at hserve hp
  rw [← cost_plain] at hlen ⊢
  obtain ⟨h1, -, h3⟩ := C102_returns_partial c hc N (calls.map plain) (plain_ok c calls hcalls) code mem s hs hg hlen hserve hp
  have h1' : result r.2 = some (.ok ()) := by rw [e0]; exact h1
  exact ⟨h1', ((C130_rejected_partial c hc calls hcalls code mem s hs hg hser).2.2 h1').1, by rw [e0]; exact h3⟩

/-- What goes wrong, for every schedule: a legal write whose address is too large does not return and never touches the address channel,
but its data go out as those of any other write; if it ends at all it raises OverflowError. -/
theorem C130_too_far (c : AxCfg) (hc : Standard c) (a : Nat) (ha : 2 ^ c.addrW ≤ a) (value : List Nat) (size : Option Int) (burst : AxiBurst)
    (be : List (Option Nat)) (hbe : be ≠ []) (al dl : Nat) (hd : dl = 0 ∨ value.length = 1) (sync : Bool) (sz : Nat) (hl : Legal c a value.length size burst sz)
    (s : Sim AxIn (AddrOut × WOut)) (hs : WriteReady sync s) :
    let r := axiWrite c a value size burst be al dl sync s
    (∀ x, result r = some x → x = .error .overflowError) ∧ (∀ q ∈ awTrace r.1, q.1 = s.out.1) ∧
    ∃ beats done, axiWriteBeats c.dataBytes sz a burst value be = .ok beats ∧ beats.length = value.length ∧
      (wStream c).Burst (wReqs c beats) ((dl + if sync then 1 else 0) :: List.replicate (value.length - 1) 0) (wTrace r.1) done := by
  intro r
  have hr : r = axiWriteRun c a value sz burst be al dl sync s := by
    show axiWrite c a value size burst be al dl sync s = _
    rw [axiWrite_legal c hc a value size burst be al dl sync sz hl]
  have hf := Legal.facts (c := { c with addrW := a }) (a := a) (len := value.length) (size := size) (burst := burst) (sz := sz) hl hc (Nat.lt_two_pow_self)
  obtain ⟨-, h2, h3, k, m, hk, hm, hW⟩ := hf
  change c.dataBytes = _ at hW
  obtain ⟨beats, b1, b2, b3⟩ := axiWriteBeats_ok sz m a h2 hm burst value be hbe
  rw [← hW] at b1 b3
  have hne : beats ≠ [] := by
    rintro rfl
    simp at b2 h3
    omega
  obtain ⟨g1, g2, ⟨v, v1, v2, v3⟩, g4⟩ := axiWriteRun_big c a value sz burst be al dl sync ha s
  have hWr := sendBeats_first c dl sync beats (by rw [b2]; exact hd) hne b3 ⟨s.phase, s.out.2, s.prev, s.cur, s.rest⟩ hs.1 hs.2.2
  rw [← sendWriteData_eq c a value burst sz dl be sync beats b1] at hWr
  obtain ⟨wa, we, wb⟩ := hWr.burst (by simp [wReqs_length]; have := List.length_pos_iff.2 hne; omega) v v2 v3 (fun s' h => by simp [wStream, h.2])
  rw [hr]
  refine ⟨fun x hx => ?_, g2, beats, _, b1, b2, by rw [v1, ← b2]; exact wa⟩
  unfold result at hx
  cases he : (axiWriteRun c a value sz burst be al dl sync s).2 with
  | ok u s' => exact absurd he (g1 u s')
  | err e s' => rw [he] at hx; cases hx; rw [g4 we e s' he]
  | blocked s' => rw [he] at hx; cases hx

/-- C128, partial: a legal write of an AXI4 or AXI4-Lite master of an address from `len(master)` on never returns; one of an address below
never raises OverflowError. -/
theorem C128_axi_write_partial (c : AxCfg) (hc : Standard c) (n : Nat) (hn : masterLen c.addrW = .ok n) (a : Nat) (value : List Nat) (size : Option Int)
    (burst : AxiBurst) (be : List (Option Nat)) (al dl : Nat) (sync : Bool) (sz : Nat) (hl : Legal c a value.length size burst sz) (s : Sim AxIn (AddrOut × WOut)) :
    (n ≤ a → ∀ s', (axiWrite c a value size burst be al dl sync s).2 ≠ .ok () s') ∧
    (a < n → result (axiWrite c a value size burst be al dl sync s) ≠ some (.error .overflowError)) := by
  rw [masterLen_ok hn, axiWrite_legal c hc a value size burst be al dl sync sz hl]
  refine ⟨fun h s' => (axiWriteRun_big c a value sz burst be al dl sync h s).1 () s', fun h he => ?_⟩
  obtain ⟨h1, h2, h3, k, m, hk, hm, hW⟩ := Legal.facts hl hc h
  cases hr : (axiWriteRun c a value sz burst be al dl sync s).2 with
  | err e s' =>
    simp [result, hr] at he
    exact axiWriteRun_no c a value sz m burst be al dl sync h1 h2 hm hW (by rintro rfl; simp at h3) s s' (by rw [hr, he])
  | ok d s' => simp [result, hr] at he
  | blocked s' => simp [result, hr] at he

/-! ### Instances -/

/-- A write, a read of no words, a read of an address that is too large, a write that crosses a 4 KiB page, and a read of what the first
write stored. -/
def callsAx : List AxCall :=
  [(.write 0x100 [0x22] none .incr [none] 0 0 true, none), (.read 0x100 0 none .incr true, some .valueError), (.read 0x10000 1 none .incr true, some .overflowError),
   (.write 0xFFC [1, 2] none .incr [none] 0 0 true, some .valueError), (.read 0x100 1 none .incr true, none)]

def schedTry : List AxIn := [{}, {}, readyIn, bIn, {}, {}, {}, readyIn, rIn 0x22 0 .one, {}, {}]

theorem callsAx_ok : ∀ q ∈ callsAx, CallOk cfgAx q := by
  have l1 : Legal cfgAx 0x100 1 none .incr 4 := (axiChecks_ok cfgAx 0x100 1 none .incr 4 2 rfl (by decide)).1 (by decide)
  have l2 : Legal cfgAx 0x10000 1 none .incr 4 := (axiChecks_ok cfgAx 0x10000 1 none .incr 4 2 rfl (by decide)).1 (by decide)
  have no : ∀ a (len : Int), axiChecks cfgAx a len none .incr = .error .valueError → ¬ ∃ sz, Legal cfgAx a len none .incr sz := by
    rintro a len h ⟨sz, hl⟩
    rw [(axiChecks_ok cfgAx a len none .incr sz 2 rfl (by decide)).2 hl] at h
    cases h
  simp only [callsAx, List.forall_mem_cons]
  exact ⟨⟨rfl, by decide, by decide, by decide, l1, fun h => by cases h⟩, .inl ⟨rfl, no _ _ (by decide)⟩, .inr ⟨rfl, ⟨4, l2⟩, by decide⟩,
    ⟨rfl, no _ _ (by decide)⟩, ⟨rfl, by decide, l1, fun h => by cases h⟩, fun _ h => by cases h⟩

example : let s := startAx (schedTry ++ List.replicate 12 ({} : AxIn))
    let r := axTry cfgAx (callsAx.map Prod.fst) s
    (∀ i ∈ s.cur :: s.rest, GoodBeat 4 i ∧ GoodResp i) ∧ (callsAx.map (callCost 3)).sum ≤ s.rest.length ∧
    AxMem.Serves cfgAx (AxMem.idle allOkay 0 (fun _ => 0)) r.2.1 ∧ AxMem.Prompt 3 cfgAx (AxMem.idle allOkay 0 (fun _ => 0)) AxWait.zero r.2.1 ∧
    r.1 = [.ok [], .error .valueError, .error .overflowError, .error .valueError, .ok [natToBits 32 0x22]] := by
  intro s r
  have h1 : (s.cur :: s.rest).all (goodB 4) = true := by decide +kernel
  have h2 : AxMem.servesB cfgAx (AxMem.idle allOkay 0 (fun _ => 0)) r.2.1 = true := by decide +kernel
  have h3 : AxMem.promptB 3 cfgAx (AxMem.idle allOkay 0 (fun _ => 0)) AxWait.zero r.2.1 = true := by decide +kernel
  exact ⟨fun i hi => good_of_goodB (List.all_eq_true.1 h1 i hi), by decide +kernel, AxMem.serves_of_servesB cfgAx r.2.1 (AxMem.idle allOkay 0 (fun _ => 0)) h2,
    AxMem.prompt_of_promptB 3 cfgAx r.2.1 (AxMem.idle allOkay 0 (fun _ => 0)) AxWait.zero h3, by decide +kernel⟩

-- AXI4-Lite: a read of an address that is too large
example : CallOk (AxCfg.lite 16 4) (.liteRead 0x10000 true, some .overflowError) ∧ CallOk (AxCfg.lite 16 4) (.liteRead 0xFFFF true, none) :=
  ⟨⟨rfl, by decide⟩, ⟨rfl, by decide⟩⟩

-- a burst that starts beyond the last address
example : Legal cfgAx 0x10000 2 none .incr 4 ∧
    (let r := axiWrite cfgAx 0x10000 [1, 2] none .incr [none] 0 0 true (startW [{}, readyIn, readyIn, readyIn])
     result r = some (.error .overflowError) ∧ ((wStream cfgAx).taken (wTrace r.1)).map (fun w => bitsToNat w.data) = [1, 2]) :=
  ⟨(axiChecks_ok cfgAx 0x10000 2 none .incr 4 2 rfl (by decide)).1 (by decide), by decide +kernel⟩

end CocotbBus
