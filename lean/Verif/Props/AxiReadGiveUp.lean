import Verif.Proof.AxiReadGiveUp
import Verif.Props.Cancel

/-! # C124: an AXI read that is given up by its caller -/

namespace CocotbBus
open Spec Coro

/-- **C124** is false: a read is given up while its address is on offer; it stays on offer and the slave accepts it three times. -/
theorem C124_violated : ¬ ∀ (c : AxCfg), Standard c → ∀ (a : Nat), a < 2 ^ c.addrW → ∀ (length : Int) (size : Option Int) (burst : AxiBurst) (rr sync : Bool) (sz : Nat),
    Legal c a length size burst sz → ∀ (s : Sim AxIn AddrOut), ReadReady sync s → ∀ (n m : Nat),
      ((arStream c).taken ((do cancelAfter n (axiRead c a length size burst rr sync); edges m) s).1).length ≤ 1 := by
  intro h
  have := h cfgAx cfgAx_standard 0x100 (by decide) 2 none .incr false true 4 ((axiChecks_ok cfgAx 0x100 2 none .incr 4 2 rfl (by decide)).1 (by decide))
    (startR [{}, {}, {}, {}, readyIn, readyIn, readyIn, {}]) (startR_ready _ _) 3 4
  revert this
  decide +kernel

/-- C124, what does hold: whenever the read is given up and however long the clock goes on, the slave has accepted that address and no other one, though
possibly several times. -/
theorem C124_partial (c : AxCfg) (hc : Standard c) (a : Nat) (ha : a < 2 ^ c.addrW) (length : Int) (size : Option Int) (burst : AxiBurst) (rr sync : Bool) (sz : Nat)
    (hl : Legal c a length size burst sz) (s : Sim AxIn AddrOut) (hs : ReadReady sync s) (n m : Nat) :
    ∃ j, (arStream c).taken ((do cancelAfter n (axiRead c a length size burst rr sync); edges m) s).1 = List.replicate j (addrReq c a length.toNat sz burst) := by
  obtain ⟨j, h, -⟩ := asked_edges c _ (cancelAfter n (axiRead c a length size burst rr sync)) s m (read_given_up c hc a ha length size burst rr sync sz hl s hs n)
  exact ⟨j, h⟩

/-- C124 holds if ARVALID is not 1 when the read is given up: before the address is on offer or after it has been accepted. -/
theorem C124_idle_partial (c : AxCfg) (hc : Standard c) (a : Nat) (ha : a < 2 ^ c.addrW) (length : Int) (size : Option Int) (burst : AxiBurst) (rr sync : Bool) (sz : Nat)
    (hl : Legal c a length size burst sz) (s : Sim AxIn AddrOut) (hs : ReadReady sync s) (n m : Nat)
    (hv : (cancelAfter n (axiRead c a length size burst rr sync) s).2.sim.out.valid ≠ .one) :
    ∃ j ≤ 1, (arStream c).taken ((do cancelAfter n (axiRead c a length size burst rr sync); edges m) s).1 = List.replicate j (addrReq c a length.toNat sz burst) := by
  obtain ⟨j, h, h1⟩ := asked_edges c _ (cancelAfter n (axiRead c a length size burst rr sync)) s m (read_given_up c hc a ha length size burst rr sync sz hl s hs n)
  exact ⟨j, h1 (by simpa [arStream] using hv), h⟩

/-- C124, how often it is asked for if ARVALID is 1 when the read is given up: at every later edge with ARREADY. -/
theorem C124_count (c : AxCfg) (hc : Standard c) (a : Nat) (ha : a < 2 ^ c.addrW) (length : Int) (size : Option Int) (burst : AxiBurst) (rr sync : Bool) (sz : Nat)
    (hl : Legal c a length size burst sz) (s : Sim AxIn AddrOut) (hs : ReadReady sync s) (n m : Nat)
    (hv : (cancelAfter n (axiRead c a length size burst rr sync) s).2.sim.out.valid = .one) :
    let before := (cancelAfter n (axiRead c a length size burst rr sync) s).1
    let all := ((do cancelAfter n (axiRead c a length size burst rr sync); edges m) s).1
    (arStream c).taken all = List.replicate ((all.drop before.length).countP (fun q => q.2.arready == .one)) (addrReq c a length.toNat sz burst) :=
  asked_count c _ (cancelAfter n (axiRead c a length size burst rr sync)) s m (read_given_up c hc a ha length size burst rr sync sz hl s hs n)
    (by simpa [arStream] using hv)

-- given up while the address is on offer, which is then accepted three times; and given up while waiting for the data
example : (arStream cfgAx).taken ((do cancelAfter 3 (axiRead cfgAx 0x100 2 none .incr false true); edges 4) (startR [{}, {}, {}, {}, readyIn, readyIn, readyIn, {}])).1 =
    List.replicate 3 (addrReq cfgAx 0x100 2 4 .incr) := by decide +kernel

example : let s := startR [{}, {}, readyIn, {}, readyIn, readyIn, readyIn, {}]
    (cancelAfter 4 (axiRead cfgAx 0x100 2 none .incr false true) s).2.sim.out.valid ≠ .one ∧
    (arStream cfgAx).taken ((do cancelAfter 4 (axiRead cfgAx 0x100 2 none .incr false true); edges 3) s).1 = [addrReq cfgAx 0x100 2 4 .incr] := by decide +kernel

example : let s := startR [{}, {}, {}, {}, readyIn, {}, readyIn, {}]
    (cancelAfter 3 (axiRead cfgAx 0x100 2 none .incr false true) s).2.sim.out.valid = .one ∧
    (((do cancelAfter 3 (axiRead cfgAx 0x100 2 none .incr false true); edges 4) s).1.drop (cancelAfter 3 (axiRead cfgAx 0x100 2 none .incr false true) s).1.length).countP
      (fun q : AddrOut × AxIn => q.2.arready == Logic.one) = 2 := by decide +kernel

end CocotbBus
