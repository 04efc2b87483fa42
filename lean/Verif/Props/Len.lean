import Verif.Proof.Len
import Verif.Props.AxiWrite
import Verif.Props.AvalonMM

/-! C128: the length of a master. -/

namespace CocotbBus

open Coro Spec

/-- C128: `len(master)` is not the number of addresses for every bus: with 64 address bits it raises, and so does `if master:`. -/
theorem C128_violated : ¬ ∀ w, masterLen w = .ok (2 ^ w) ∧ masterBool w = .ok true := by
  intro h
  have := (h 64).1
  revert this
  decide

/-- C128, partial: with up to 62 address bits `len(master)` is the number of addresses and a master is true. -/
theorem C128_len_partial (w : Nat) (hw : w < 63) : masterLen w = .ok (2 ^ w) ∧ masterBool w = .ok true := by
  have h : 2 ^ w ≤ pyMaxsize := by
    have : 2 ^ w < 2 ^ 63 := Nat.pow_lt_pow_right (by decide) hw
    unfold pyMaxsize; omega
  have h0 : 2 ^ w ≠ 0 := Nat.ne_of_gt (Nat.two_pow_pos w)
  unfold masterLen masterBool pyBool pyLen dunderLen
  rw [if_pos h]
  exact ⟨rfl, by simp [Except.map]⟩

/-- C128: with more address bits both raise OverflowError. -/
theorem C128_wide (w : Nat) (hw : 63 ≤ w) : masterLen w = .error .overflowError ∧ masterBool w = .error .overflowError := by
  have h : ¬ 2 ^ w ≤ pyMaxsize := by
    have : 2 ^ 63 ≤ 2 ^ w := Nat.pow_le_pow_right (by decide) hw
    unfold pyMaxsize; omega
  unfold masterLen masterBool pyBool pyLen dunderLen
  rw [if_neg h]
  exact ⟨rfl, rfl⟩

theorem masterLen_ok {w n : Nat} (h : masterLen w = .ok n) : n = 2 ^ w := by
  by_cases hw : w < 63
  · rw [(C128_len_partial w hw).1] at h; cases h; rfl
  · rw [(C128_wide w (by omega)).1] at h; cases h

/-- C128, partial: the addresses of an Avalon master are those below `len(master)`. A read or a write (of a value that fits) of any other
address never returns, a read with `sync=False` raises at once; of one of these it never raises OverflowError. -/
theorem C128_avalon_partial (c : MmCfg) (n : Nat) (hn : masterLen c.addrW = .ok n) (a v : Nat) (hv : v < 2 ^ c.dataW) :
    (n ≤ a → ∀ (sync : Bool) (s s' : Sim MmIn MmOut), (∀ d, (mmRead c a sync s).2 ≠ .ok d s') ∧ (mmWrite c a v s).2 ≠ .ok () s') ∧
    (n ≤ a → c.hasRead = true → ∀ s : Sim MmIn MmOut, s.out.busy = false → result (mmRead c a false s) = some (.error .overflowError) ∧ (mmRead c a false s).1 = []) ∧
    (a < n → ∀ (sync : Bool) (s : Sim MmIn MmOut),
      result (mmRead c a sync s) ≠ some (.error .overflowError) ∧ result (mmWrite c a v s) ≠ some (.error .overflowError)) := by
  rw [masterLen_ok hn]
  refine ⟨fun h sync s s' => ⟨fun d => mmRead_big c a sync (by omega) s d s', mmWrite_big c a v (by omega) s () s'⟩, fun h hr s hb => ?_, fun h sync s => ⟨?_, ?_⟩⟩
  · rw [mmRead_big_now c a (by omega) hr s hb]; exact ⟨rfl, rfl⟩
  · intro he
    cases hr : (mmRead c a sync s).2 with
    | err e s' => simp [result, hr] at he; exact mmRead_no c a sync h s s' (by rw [hr, he])
    | ok d s' => simp [result, hr] at he
    | blocked s' => simp [result, hr] at he
  · intro he
    cases hr : (mmWrite c a v s).2 with
    | err e s' => simp [result, hr] at he; exact mmWrite_no c a v h hv s s' (by rw [hr, he])
    | ok d s' => simp [result, hr] at he
    | blocked s' => simp [result, hr] at he

/-- C128, partial: the same for the legal reads of an AXI4 or AXI4-Lite master. -/
theorem C128_axi_partial (c : AxCfg) (hc : Standard c) (n : Nat) (hn : masterLen c.addrW = .ok n) (a : Nat) (length : Int) (size : Option Int)
    (burst : AxiBurst) (rr : Bool) (sz : Nat) (hl : Legal c a length size burst sz) :
    (n ≤ a → ∀ (sync : Bool) (s s' : Sim AxIn AddrOut) (d), (axiRead c a length size burst rr sync s).2 ≠ .ok d s') ∧
    (n ≤ a → ∀ s : Sim AxIn AddrOut, axiRead c a length size burst rr false s = ([], .err .overflowError s)) ∧
    (a < n → ∀ (sync : Bool) (s : Sim AxIn AddrOut), result (axiRead c a length size burst rr sync s) ≠ some (.error .overflowError)) := by
  rw [masterLen_ok hn]
  simp only [axiRead_legal c hc a length size burst rr _ sz hl]
  refine ⟨fun h sync s s' d => axiReadRun_big c a _ sz burst rr sync (by omega) s d s', fun h s => axiReadRun_big_now c a _ sz burst rr (by omega) s,
    fun h sync s he => ?_⟩
  obtain ⟨h1, h2, -⟩ := Legal.facts hl hc h
  cases hr : (axiReadRun c a length.toNat sz burst rr sync s).2 with
  | err e s' => simp [result, hr] at he; exact axiReadRun_no c a _ sz burst rr sync h1 h2 s s' (by rw [hr, he])
  | ok d s' => simp [result, hr] at he
  | blocked s' => simp [result, hr] at he

-- a master with 16 address bits, and reads at both sides of the end
example : masterLen cfgAx.addrW = .ok 0x10000 ∧ masterLen exMm.addrW = .ok (2 ^ exMm.addrW) ∧ masterBool exMm.addrW = .ok true := by decide

example : result (mmRead exMm (2 ^ exMm.addrW) false exMmSim) = some (.error .overflowError) ∧ (mmRead exMm (2 ^ exMm.addrW - 1) false exMmSim).2.isOk = true := by
  decide +kernel

example : Legal cfgAx 0x10000 2 none .incr 4 ∧ Legal cfgAx 0xFFF8 2 none .incr 4 :=
  ⟨(axiChecks_ok cfgAx 0x10000 2 none .incr 4 2 rfl (by decide)).1 (by decide), (axiChecks_ok cfgAx 0xFFF8 2 none .incr 4 2 rfl (by decide)).1 (by decide)⟩

-- 62 and 63 address bits
example : masterLen 62 = .ok (2 ^ 62) ∧ masterLen 63 = .error .overflowError := by decide

end CocotbBus
