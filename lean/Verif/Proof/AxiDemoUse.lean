import Verif.Proof.AxiDemo
import Verif.Proof.AxiPar

/-! # The AXI4-Lite slave example: calls of the master -/

namespace CocotbBus
open Spec Coro
variable {hot : Bool} {r : Regs} {d : DemoDev} {a : Nat}

/-- the bus of the example -/
abbrev demoCfg : AxCfg := AxCfg.lite 32 4

theorem demoCfg_standard : Standard demoCfg := ⟨⟨2, by decide, rfl⟩, rfl, rfl, rfl⟩

/-- from the acceptance of the address to the data -/
theorem fetch_run {α : Type} {d : DemoDev} (t : List (α × AxIn)) (f : α → AxAll) (h : d.Fetch 0 a r) (hd : d.Drives (t.map (fun q => (f q.1, q.2)))) :
    ((∀ q ∈ t, rFire q.2 = false) → t.length ≤ 2) ∧
    ((∃ t' q, t = t' ++ [q] ∧ rFire q.2 = true ∧ ∀ p ∈ t', rFire p.2 = false) →
      t.length = 3 ∧ (d.run (t.map (fun q => (f q.1, q.2)))).Rest false r ∧
      ∃ i : AxIn, (t.map Prod.snd).filter rFire = [i] ∧ i.rdata = natToBits 32 (if a = 0 then r.r0 else if a = 4 then r.r4 else 0) ∧
        i.rresp = natToBits 2 (if a > 4 then 3 else 0)) := by
  match t, hd with
  | [], _ => exact ⟨fun _ => by simp, fun ⟨t', q, h, _⟩ => by simp at h⟩
  | [x], hd =>
    refine ⟨fun _ => by simp, fun ⟨t', q, h1, h2, _⟩ => ?_⟩
    have : x = q := by simpa using congrArg List.getLast? h1
    subst this
    have hx : x.2 = d.pins := hd.1
    rw [hx, rFire_pins, h.rvalid] at h2
    cases h2
  | [x, y], hd =>
    refine ⟨fun _ => by simp, fun ⟨t', q, h1, h2, _⟩ => ?_⟩
    have : y = q := by simpa using congrArg List.getLast? h1
    subst this
    have hx : y.2 = (d.step (f x.1)).pins := hd.2.1
    rw [hx, rFire_pins, h.next0.rvalid] at h2
    cases h2
  | x :: y :: z :: l, hd =>
    have s1 := h.next0 (o := f x.1)
    have s2 := s1.next1 (o := f y.1)
    have hx : x.2 = d.pins := hd.1
    have hy : y.2 = (d.step (f x.1)).pins := hd.2.1
    have hz : z.2 = ((d.step (f x.1)).step (f y.1)).pins := hd.2.2.1
    have fx : rFire x.2 = false := by rw [hx, rFire_pins, h.rvalid]; rfl
    have fy : rFire y.2 = false := by rw [hy, rFire_pins, s1.rvalid]; rfl
    have fz : rFire z.2 = true := by rw [hz, rFire_pins, s2.rvalid]; rfl
    refine ⟨fun h1 => absurd (h1 z (by simp)) (by simp [fz]), fun ⟨t', q, h1, h2, h3⟩ => ?_⟩
    have hl : l = [] := by
      cases l with
      | nil => rfl
      | cons w l =>
        exfalso
        have hzt : z ∈ t' := by
          have : (x :: y :: z :: w :: l).dropLast = t' := by rw [h1]; simp
          rw [← this]; simp
        have := h3 z hzt; rw [fz] at this; cases this
    subst hl
    refine ⟨rfl, s2.next2, z.2, by simp [fx, fy, fz], ?_, ?_⟩
    · rw [hz]; show natToBits 32 _ = _; rw [s2.rdata rfl]
    · rw [hz]; show natToBits 2 _ = _; rw [s2.rresp rfl]

/-- a read -/
theorem demo_read (c : AxCfg) (hc : c.full = false) (p : AddrReq) (lead : Nat) (t1 t2 : List (AddrOut × AxIn)) (o : AddrOut × WOut) (ho : o.1.valid = .zero) (ar : Bool)
    (h : d.Rest hot r) (hd : d.Drives ((t1 ++ t2).map (fun q => ((o, q.1), q.2)))) (hA : (arStream c).Request p lead t1 ar) (hn : ar = false → t2 = []) :
    (ar = false → (t1 ++ t2).length < lead + 5) ∧
    ((∀ q ∈ t2, rFire q.2 = true → rLast c q.2 = false) → (t1 ++ t2).length < lead + 5) ∧
    (ar = true → OneBurst c t2 → (t1 ++ t2).length ≤ lead + 5 ∧ (d.run ((t1 ++ t2).map (fun q => ((o, q.1), q.2)))).Rest false r ∧
      ∃ i : AxIn, rBeats t2 = [i] ∧ i.rdata = natToBits 32 (if bitsToNat p.addr = 0 then r.r0 else if bitsToNat p.addr = 4 then r.r4 else 0) ∧
        i.rresp = natToBits 2 (if bitsToNat p.addr > 4 then 3 else 0)) := by
  let F : AddrOut × AxIn → AxAll × AxIn := fun q => ((o, q.1), q.2)
  change d.Drives ((t1 ++ t2).map F) at hd
  have hlast : ∀ i, rLast c i = true := fun i => by simp [rLast, hc]
  have noaw : ∀ q : AddrOut × AxIn, (awStream c).xfer ((F q).1.1.1, (F q).2) = false := fun q => by simp [F, Stream.xfer, awStream, ho]
  rw [List.map_append, drives_append] at hd
  obtain ⟨idle, held, g1, g2, g3⟩ := hA
  have gx : ∀ q ∈ idle ++ held, (arStream c).xfer q = false := by
    intro q hq
    rcases List.mem_append.1 hq with hq | hq
    · simp [Stream.xfer, g1 q hq]
    · simp [Stream.xfer, (g2 q hq).2.2]
  have held1 : ∀ u, d.Drives (u.map F) → u = idle ++ held → held.length ≤ 1 := by
    intro u hu e
    refine h.held c (V := arStream c) (fun o => o.2) (fun d hd => (Logic.ofBool_one _).trans hd.ready) (u.map F) hu ?_ idle held ?_ (fun q hq => (g2 q hq).2.2)
    · intro q hq
      obtain ⟨x, hx, rfl⟩ := List.mem_map.1 hq
      exact ⟨noaw x, gx x (by rw [← e]; exact hx)⟩
    · rw [← e]; simp [F, List.map_map, Function.comp_def]
  cases ar with
  | false =>
    simp only [Bool.false_eq_true, if_false] at g3
    have hlen : t1.length < lead + 5 := by
      rcases g3 with ⟨e1, e2⟩ | ⟨e1, e2⟩
      · rw [e1]; omega
      · have := held1 t1 hd.1 e1
        rw [e1, List.length_append]; omega
    rw [hn rfl, List.append_nil]
    exact ⟨fun _ => hlen, fun _ => hlen, fun h => absurd h (by decide)⟩
  | true =>
    simp only [if_true] at g3
    obtain ⟨e2, q0, e1, v1, v2, v3⟩ := g3
    subst e1
    rw [List.map_append, drives_append] at hd
    obtain ⟨⟨k0, k1, _⟩, k2⟩ := hd
    have hheld := held1 _ k0 rfl
    obtain ⟨hr, _⟩ := h.run c ((idle ++ held).map F) k0 (by
      intro q hq
      obtain ⟨x, hx, rfl⟩ := List.mem_map.1 hq
      exact ⟨noaw x, gx x hx⟩)
    have hrdy : (d.run ((idle ++ held).map F)).awready = true := by
      have : (arStream c).ready (F q0).2 = true := v3
      rw [k1] at this
      rw [← hr.ready]
      exact (Logic.ofBool_one _).symm.trans this
    have hf := hr.ar (o := (F q0).1) (by show ¬o.1.valid = .one; rw [ho]; decide) (by simpa [arStream] using v1) hrdy
    have ep : (F q0).1.2.addr = p.addr := by rw [← v2]; rfl
    rw [ep] at hf
    rw [demoRun_append] at k2
    obtain ⟨f1, f2⟩ := fetch_run t2 (fun x => (o, x)) hf k2
    simp only [List.length_append, List.length_singleton] at f1 f2 ⊢
    refine ⟨fun h => absurd h (by decide), fun hno => ?_, fun _ hb => ?_⟩
    · have := f1 (fun q hq => by
        cases hq' : rFire q.2 with
        | false => rfl
        | true => have := hno q hq hq'; rw [hlast] at this; cases this)
      omega
    · obtain ⟨t', q, b1, b2, b3, b4⟩ := hb
      obtain ⟨n1, n2, n3⟩ := f2 ⟨t', q, b1, b2, fun x hx => by
        cases hq' : rFire x.2 with
        | false => rfl
        | true => have := b4 x hx hq'; rw [hlast] at this; cases this⟩
      refine ⟨by omega, ?_, n3⟩
      rw [List.map_append, demoRun_append, List.map_append, demoRun_append]
      exact n2

/-! ### Calls -/

theorem beats_demo (a v : Nat) (be : Option Nat) (ha : a % 4 = 0) : ∃ st, axiWriteBeats 4 4 a .incr [v] [be] = .ok [(v % 2 ^ 32, st)] := by
  refine ⟨be.getD 15 &&& 15, ?_⟩
  simp [axiWriteBeats, axiStrobes, axiShifted, ha, axiLanes, maskAndShift, bind, Except.bind, pure, Except.pure]
  exact Nat.and_two_pow_sub_one_eq_mod v 32

theorem slices_demo (v : LogicArray) (hv : v.length = 32) : axiSlices 4 4 .incr 0 [v] = .ok [v] := by
  have h : shiftAndMask v 4 0 = .ok v := by
    unfold shiftAndMask binarySlice
    rw [hv, if_neg (by decide), if_pos (by decide), if_pos (by decide)]
    show Except.ok (v.take 32) = _
    rw [List.take_of_length_le (by omega)]
  simp only [axiSlices, h]
  rfl

theorem pins_good (d : DemoDev) : GoodBeat 4 d.pins ∧ GoodResp d.pins := by
  have h : ∀ n, ∃ m, respIs (natToBits 2 n) m := fun n => ⟨n % 4, isResolvable_natToBits _ _, bitsToNat_natToBits 2 n, Nat.mod_lt _ (by decide)⟩
  exact ⟨fun _ => ⟨natToBits_length 32 _, h _⟩, fun _ => h _⟩

theorem drives_good : ∀ (t : List (AxAll × AxIn)) (d : DemoDev), d.Drives t → ∀ i ∈ t.map Prod.snd, GoodBeat 4 i ∧ GoodResp i := by
  intro t
  induction t with
  | nil => intro d _ i hi; cases hi
  | cons q t ih =>
    intro d hd i hi
    rcases List.mem_cons.1 hi with rfl | hi
    · rw [hd.1]; exact pins_good d
    · exact ih _ hd.2 i hi

/-- what a call did -/
def DemoCall {α O : Type} (cost : Nat) (t : List (O × AxIn)) (e : End AxIn O α) (y : Except PyErr α) (Q : Sim AxIn O → Prop) (P : Prop) : Prop :=
  ((∃ s', e = .blocked s') ∧ t.length < cost) ∨ (∃ s', e = endWith y s' ∧ Q s' ∧ t.length ≤ cost ∧ P)

theorem after_put (r : Regs) (a v w : Nat) (be : Option Nat) (al dl : Nat) (sync : Bool) (h : a = 0 ∨ a = 4 → w = v % 2 ^ 32) :
    r.put a w = r.after (.liteWrite a v be al dl sync) := by
  unfold Regs.put Regs.after
  by_cases h0 : a = 0
  · subst h0; simp [h]
  · by_cases h4 : a = 4
    · subst h4; simp [h]
    · simp [h0, h4]

theorem demo_axiWrite (a v : Nat) (be : Option Nat) (al dl : Nat) (sync : Bool) (ha : a < 2 ^ 32) (s : Sim AxIn (AddrOut × WOut)) (hs : WriteReady sync s)
    (hg : ∀ i ∈ s.cur :: s.rest, GoodResp i) (o : AddrOut) (ho : o.valid = .zero) (h : d.Rest hot r) (hsp : hot = true → sync = true ∨ 0 < dl)
    (hd : d.Drives ((axiWrite demoCfg a [v] none .incr [be] al dl sync s).1.map (fun q => ((q.1, o), q.2)))) :
    DemoCall (regCost (.liteWrite a v be al dl sync)) (axiWrite demoCfg a [v] none .incr [be] al dl sync s).1 (axiWrite demoCfg a [v] none .incr [be] al dl sync s).2
      (if a > 4 then .error (.axiProtocol 3) else .ok ()) (fun s' => s'.phase = .edge ∧ s'.out.1.valid = .zero ∧ s'.out.2.valid = .zero)
      ((d.run ((axiWrite demoCfg a [v] none .incr [be] al dl sync s).1.map (fun q => ((q.1, o), q.2)))).Rest true (r.after (.liteWrite a v be al dl sync))) := by
  have hl : Legal demoCfg a ([v] : List Nat).length none .incr 4 := legal_single demoCfg demoCfg_standard a
  rw [axiWrite_legal demoCfg demoCfg_standard a [v] none .incr [be] al dl sync 4 hl] at hd ⊢
  obtain ⟨hf, hsz, _, _⟩ := Legal.facts hl demoCfg_standard (show a < 2 ^ demoCfg.addrW from ha)
  obtain ⟨beats, hb, hbl, hbf⟩ := axiWriteBeats_ok 4 1 a (by decide) (by decide) .incr [v] [be] (by simp)
  change axiWriteBeats demoCfg.dataBytes 4 a .incr [v] [be] = .ok beats at hb
  match beats, hbl with
  | [(w, st)], _ =>
    have hw : a = 0 ∨ a = 4 → w = v % 2 ^ 32 := by
      intro h04
      obtain ⟨st', e⟩ := beats_demo a v be (by omega)
      change axiWriteBeats demoCfg.dataBytes 4 a .incr [v] [be] = _ at e
      rw [hb] at e
      injection e with e
      injection e with e
      injection e
    have hbf' : w < 2 ^ 32 := (hbf _ (List.mem_singleton.2 rfl)).1
    have key := axiWriteRun_spec demoCfg a [v] 4 .incr [be] al dl sync hf hsz [(w, st)] hb (by simp) hbf (.inr rfl) s hs.1 hs.2.1 hs.2.2 hg
    have kend := axiWriteRun_end demoCfg a [v] 4 .incr [be] al dl sync hf hsz [(w, st)] hb (by simp) hbf (.inr rfl) s hs
    simp only at key
    obtain ⟨tc, tb, aw, wb, k1, k2, k3, k4, k5⟩ := key
    rw [k1] at hd k2 k3 ⊢
    have hlead : regCost (.liteWrite a v be al dl sync) = max ((al + if sync = true then 1 else 0) + 3) ((dl + if sync = true then 1 else 0) + 1) + 3 := by
      unfold regCost; cases sync <;> simp only [Bool.false_eq_true, if_true, if_false] <;> omega
    have hpa : bitsToNat (addrReq demoCfg a ([v] : List Nat).length 4 .incr).addr = a := by
      show bitsToNat (natToBits 32 a) = a
      rw [bitsToNat_natToBits, Nat.mod_eq_of_lt ha]
    have hlat : hot = true → 0 < (dl + if sync = true then 1 else 0) := by
      intro hh
      rcases hsp hh with h1 | h1
      · rw [h1]; exact Nat.succ_pos _
      · omega
    have key := demo_write demoCfg _ _ _ _ tc tb o ho aw wb h hd hlat k2 k3 (fun h => (k4 h).2) k5
    rw [hpa] at key
    rw [← hlead] at key
    rcases key with ⟨g1, g2⟩ | ⟨g1, g2, g3⟩
    · exact .inl ⟨blocked_of_none g1, g2⟩
    · obtain ⟨s', q1, q2⟩ := ended_of_result g1 (by intro e he; split at he <;> cases he; exact ⟨_, rfl⟩)
      refine .inr ⟨s', q2, kend s' q1, g2, ?_⟩
      rw [← after_put r a v w be al dl sync hw]
      have e : bitsToNat (natToBits (8 * demoCfg.dataBytes) w) = w := by
        show bitsToNat (natToBits 32 w) = w
        rw [bitsToNat_natToBits, Nat.mod_eq_of_lt hbf']
      rw [← e]
      exact g3

/-- what a read makes of its beat -/
theorem demo_finish (a : Nat) (r : Regs) (i : AxIn) (hra : a = 0 ∨ 4 ≤ a) (hv : i.rdata = natToBits 32 (if a = 0 then r.r0 else if a = 4 then r.r4 else 0))
    (hresp : bitsToNat i.rresp = if a > 4 then 3 else 0) (sl : List LogicArray) (h : axiSlices 4 4 .incr (a % 4 / 4 * 4) [i.rdata] = .ok sl) :
    axiFinish a 1 4 .incr false ⟨sl, [bitsToNat i.rresp], 0⟩ = if a > 4 then .error (.axiProtocol 3) else .ok (.inl [natToBits 32 (if a = 0 then r.r0 else r.r4)]) := by
  have hlen : i.rdata.length = 32 := by rw [hv]; exact natToBits_length 32 _
  have e0 : a % 4 / 4 * 4 = 0 := by omega
  rw [e0] at h
  obtain rfl : [i.rdata] = sl := Except.ok.inj ((slices_demo _ hlen).symm.trans h)
  obtain ⟨p1, ws, p2, p3⟩ := axiReadWords_ok 4 1 a (by decide) (by decide) .incr [i.rdata] (by intro v hv; rw [List.mem_singleton.1 hv]; exact hlen) [i.rdata]
    (by show axiSlices 4 4 .incr (a % 4 / 4 * 4) _ = _; rw [e0]; exact h)
  rw [axiFinish_eq a 1 4 .incr false ⟨[i.rdata], [bitsToNat i.rresp], 0⟩ ws p2 rfl]
  by_cases h4 : a > 4
  · simp [readOutcome, hresp, h4]
  · have h04 : a = 0 ∨ a = 4 := by omega
    have e1 : axiReadWords 4 a .incr [i.rdata] = .ok [i.rdata] := if_neg (by omega)
    obtain rfl : [i.rdata] = ws := Except.ok.inj (e1.symm.trans p2)
    have hval : (if a = 0 then r.r0 else if a = 4 then r.r4 else 0) = if a = 0 then r.r0 else r.r4 := by rcases h04 with rfl | rfl <;> rfl
    rw [if_neg h4] at hresp
    rw [hv, hval, hresp, if_neg h4]
    rfl

theorem demo_axiRead (a : Nat) (sync : Bool) (ha : a < 2 ^ 32) (hra : a = 0 ∨ 4 ≤ a) (s : Sim AxIn AddrOut) (hs : ReadReady sync s)
    (hg : ∀ i ∈ s.cur :: s.rest, GoodBeat 4 i) (o : AddrOut × WOut) (ho : o.1.valid = .zero) (h : d.Rest hot r)
    (hd : d.Drives ((axiRead demoCfg a 1 none .incr false sync s).1.map (fun q => ((o, q.1), q.2)))) :
    DemoCall (regCost (.liteRead a sync)) (axiRead demoCfg a 1 none .incr false sync s).1 (axiRead demoCfg a 1 none .incr false sync s).2
      (if a > 4 then .error (.axiProtocol 3) else .ok (.inl [natToBits 32 (if a = 0 then r.r0 else r.r4)])) (fun s' => s'.phase = .edge ∧ s'.out.valid = .zero)
      ((d.run ((axiRead demoCfg a 1 none .incr false sync s).1.map (fun q => ((o, q.1), q.2)))).Rest false r) := by
  have hl : Legal demoCfg a (1 : Int) none .incr 4 := legal_single demoCfg demoCfg_standard a
  rw [axiRead_legal demoCfg demoCfg_standard a 1 none .incr false sync 4 hl] at hd ⊢
  obtain ⟨hf, hsz, _, _⟩ := Legal.facts hl demoCfg_standard (show a < 2 ^ demoCfg.addrW from ha)
  have key := axiReadRun_spec demoCfg a (1 : Int).toNat 4 1 .incr false sync hf hsz (by decide) rfl s hs.1 hs.2 hg
  have kend := axiReadRun_end demoCfg a (1 : Int).toNat 4 .incr false sync hf hsz s hs
  simp only at key
  obtain ⟨t1, t2, ar, k1, k2, k3, k4, k5⟩ := key
  rw [k1] at hd ⊢
  have hcost : regCost (.liteRead a sync) = (if sync = true then 1 else 0) + 5 := rfl
  have hpa : bitsToNat (addrReq demoCfg a (1 : Int).toNat 4 .incr).addr = a := by
    show bitsToNat (natToBits 32 a) = a
    rw [bitsToNat_natToBits, Nat.mod_eq_of_lt ha]
  obtain ⟨m1, m2, m3⟩ := demo_read demoCfg rfl _ _ t1 t2 o ho ar h hd k2 (fun h => (k4 h).1)
  rw [hpa] at m3
  rw [← hcost] at m1 m2 m3
  rcases k5 with ⟨g1, g2⟩ | ⟨g1, g2, sl, g3, g4⟩
  · exact .inl ⟨blocked_of_none g1, m2 g2⟩
  · obtain ⟨n1, n2, i, n3, n4, n5⟩ := m3 g1 g2
    rw [n3] at g3 g4
    have hresp : bitsToNat i.rresp = if a > 4 then 3 else 0 := by
      rw [n5, bitsToNat_natToBits]
      split <;> rfl
    have hout := demo_finish a r i hra n4 hresp sl g3
    have g4 := g4.trans (congrArg some hout)
    obtain ⟨s', q1, q2⟩ := ended_of_result g4 (by intro e he; split at he <;> cases he; exact ⟨_, rfl⟩)
    exact .inr ⟨s', q2, kend s' q1, n1, n2⟩

/-! ### Steps of the test -/

theorem edges_ok_length {I O : Type} (n : Nat) : ∀ (s s' : Sim I O), ((edges n : M I O Unit) s).2 = .ok () s' → ((edges n : M I O Unit) s).1.length = n := by
  induction n with
  | zero => intro s s' _; rfl
  | succ n ih =>
    intro s s'
    rw [edges]
    cases h : s.rest with
    | nil => rw [bind_awaitEdge_nil _ _ h]; intro h; cases h
    | cons i r =>
      rw [bind_awaitEdge_cons _ _ _ _ h]
      intro h
      simpa using ih _ _ h

/-- whether a write has just ended after a step -/
def hotAfter (hot : Bool) : AxOp → Bool
  | .liteWrite _ _ _ _ _ _ => true
  | .pause n => hot && n == 0
  | _ => false

theorem Spec.Spaced.tail {op : AxOp} {ops : List AxOp} (h : Spaced hot (op :: ops)) : Spaced (hotAfter hot op) ops := by
  cases op <;> first | exact h.2 | exact h

theorem demo_step (op : AxOp) (ops : List AxOp) (hop : RegOp op) (hsp : Spaced hot (op :: ops)) (s : Sim AxIn AxAll) (hs : AxReady s)
    (hg : ∀ i ∈ s.cur :: s.rest, GoodBeat 4 i ∧ GoodResp i) (h : d.Rest hot r) (hd : d.Drives (axStep demoCfg op s).1) :
    DemoCall (regCost op) (axStep demoCfg op s).1 (axStep demoCfg op s).2 (r.outcome op) AxReady ((d.run (axStep demoCfg op s).1).Rest (hotAfter hot op) (r.after op)) := by
  cases op with
  | write => exact hop.elim
  | read => exact hop.elim
  | liteWrite a v be al dl sync =>
    have key := demo_axiWrite a v be al dl sync hop.1 ⟨s.phase, s.out.1, s.prev, s.cur, s.rest⟩ ⟨.inr hs.1, hs.2.1, hs.2.2.1⟩ (fun i hi => (hg i hi).2) s.out.2 hs.2.2.2 h hsp.1
    have e : axStep demoCfg (.liteWrite a v be al dl sync) s = Res.andThen (onWrite (liteWrite demoCfg a (.inl v) be al dl sync) s) (fun _ => pure []) := rfl
    rw [e] at hd ⊢
    unfold onWrite at hd ⊢
    simp only at hd ⊢
    have e2 : ∀ u, liteWrite demoCfg a (.inl v) be al dl sync u = Res.andThen (axiWrite demoCfg a [v] none .incr [be] al dl sync u) (fun _ => ofExcept (createBinaryInt 0 2 >>= fun v => .ok v.bits)) := fun _ => rfl
    rw [e2] at hd ⊢
    generalize axiWrite demoCfg a [v] none .incr [be] al dl sync ⟨s.phase, s.out.1, s.prev, s.cur, s.rest⟩ = x at *
    obtain ⟨t, e⟩ := x
    have hy : r.outcome (.liteWrite a v be al dl sync) = if a > 4 then .error (.axiProtocol 3) else .ok [] := rfl
    cases e with
    | ok u s' =>
      change d.Drives (List.map _ (t ++ []) ++ []) at hd
      rw [List.append_nil, List.append_nil] at hd
      rcases key hd with ⟨⟨_, h1⟩, _⟩ | ⟨s1, h1, h2, h3, h4⟩
      · cases h1
      · split at h1
        · cases h1
        · next hna =>
          injection h1 with h0 h1
          subst h1
          refine .inr ⟨⟨s'.phase, (s'.out, s.out.2), s'.prev, s'.cur, s'.rest⟩, ?_, ?_, ?_, ?_⟩
          rotate_left
          · exact ⟨by show s'.phase ≠ _; rw [h2.1]; decide, h2.2.1, h2.2.2, hs.2.2.2⟩
          · show (List.map _ (t ++ []) ++ []).length ≤ _
            rw [List.append_nil, List.append_nil, List.length_map]
            exact h3
          · show (d.run (List.map _ (t ++ []) ++ [])).Rest _ _
            rw [List.append_nil, List.append_nil]
            exact h4
          · rw [hy, if_neg hna]; rfl
    | err e s' =>
      rcases key hd with ⟨⟨_, h1⟩, _⟩ | ⟨s1, h1, h2, h3, h4⟩
      · cases h1
      · split at h1
        · next hna =>
          injection h1 with h0 h1
          subst h1 h0
          refine .inr ⟨⟨s'.phase, (s'.out, s.out.2), s'.prev, s'.cur, s'.rest⟩, by rw [hy, if_pos hna]; rfl, ⟨by show s'.phase ≠ _; rw [h2.1]; decide, h2.2.1, h2.2.2, hs.2.2.2⟩, ?_, h4⟩
          show (List.map _ t).length ≤ _
          rw [List.length_map]
          exact h3
        · cases h1
    | blocked s' =>
      rcases key hd with ⟨_, h1⟩ | ⟨s1, h1, h2, h3, h4⟩
      · refine .inl ⟨⟨_, rfl⟩, ?_⟩
        show (List.map _ t).length < _
        rw [List.length_map]
        exact h1
      · split at h1 <;> cases h1
  | liteRead a sync =>
    have key := demo_axiRead a sync hop.1 hop.2 ⟨s.phase, s.out.2, s.prev, s.cur, s.rest⟩ ⟨.inr hs.1, hs.2.2.2⟩ (fun i hi => (hg i hi).1) s.out.1 hs.2.1 h
    have e : axStep demoCfg (.liteRead a sync) s = Res.andThen (onRead (liteRead demoCfg a sync) s) (fun d => pure [d]) := rfl
    rw [e] at hd ⊢
    unfold onRead at hd ⊢
    simp only at hd ⊢
    have e2 : ∀ u, liteRead demoCfg a sync u = Res.andThen (axiRead demoCfg a 1 none .incr false sync u) liteFirst := fun _ => rfl
    rw [e2] at hd ⊢
    generalize axiRead demoCfg a 1 none .incr false sync ⟨s.phase, s.out.2, s.prev, s.cur, s.rest⟩ = x at *
    obtain ⟨t, e⟩ := x
    have hy : r.outcome (.liteRead a sync) = if a > 4 then .error (.axiProtocol 3) else .ok [natToBits 32 (if a = 0 then r.r0 else r.r4)] := rfl
    cases e with
    | ok u s' =>
      have hk : d.Drives (List.map (fun q => ((s.out.1, q.1), q.2)) t) := by
        cases u with
        | inl l =>
          cases l with
          | nil =>
            change d.Drives (List.map _ (t ++ [])) at hd
            rwa [List.append_nil] at hd
          | cons x l =>
            change d.Drives (List.map _ (t ++ []) ++ []) at hd
            rwa [List.append_nil, List.append_nil] at hd
        | inr l =>
          change d.Drives (List.map _ (t ++ [])) at hd
          rwa [List.append_nil] at hd
      rcases key hk with ⟨⟨_, h1⟩, _⟩ | ⟨s1, h1, h2, h3, h4⟩
      · cases h1
      · split at h1
        · cases h1
        · next hna =>
          injection h1 with h0 h1
          subst h1 h0
          refine .inr ⟨⟨s'.phase, (s.out.1, s'.out), s'.prev, s'.cur, s'.rest⟩, ?_, ?_, ?_, ?_⟩
          rotate_left
          · exact ⟨by show s'.phase ≠ _; rw [h2.1]; decide, hs.2.1, hs.2.2.1, h2.2⟩
          · show (List.map _ (t ++ []) ++ []).length ≤ _
            rw [List.append_nil, List.append_nil, List.length_map]
            exact h3
          · show (d.run (List.map _ (t ++ []) ++ [])).Rest _ _
            rw [List.append_nil, List.append_nil]
            exact h4
          · rw [hy, if_neg hna]; rfl
    | err e s' =>
      rcases key hd with ⟨⟨_, h1⟩, _⟩ | ⟨s1, h1, h2, h3, h4⟩
      · cases h1
      · split at h1
        · next hna =>
          injection h1 with h0 h1
          subst h1 h0
          refine .inr ⟨⟨s'.phase, (s.out.1, s'.out), s'.prev, s'.cur, s'.rest⟩, by rw [hy, if_pos hna]; rfl, ⟨by show s'.phase ≠ _; rw [h2.1]; decide, hs.2.1, hs.2.2.1, h2.2⟩, ?_, h4⟩
          show (List.map _ t).length ≤ _
          rw [List.length_map]
          exact h3
        · cases h1
    | blocked s' =>
      rcases key hd with ⟨_, h1⟩ | ⟨s1, h1, h2, h3, h4⟩
      · refine .inl ⟨⟨_, rfl⟩, ?_⟩
        show (List.map _ t).length < _
        rw [List.length_map]
        exact h1
      · split at h1 <;> cases h1
  | pause n =>
    obtain ⟨h1, h2, h3⟩ := edges_const (I := AxIn) n s hs.1
    have e : axStep demoCfg (.pause n) s = Res.andThen ((edges n : M AxIn AxAll Unit) s) (fun _ => pure []) := rfl
    rw [e] at hd ⊢
    have hblk := edges_blocked (O := AxAll) (I := AxIn) n s
    have hlen := edges_ok_length (O := AxAll) (I := AxIn) n s
    generalize (edges n : M AxIn AxAll Unit) s = x at *
    obtain ⟨t, e⟩ := x
    rcases h3 with ⟨u, h3, h4, h5⟩ | ⟨u, h3⟩
    · simp only at h3
      subst h3
      change d.Drives (t ++ []) at hd
      rw [List.append_nil] at hd
      obtain ⟨k1, _⟩ := h.run demoCfg t hd (by
        intro q hq
        have := h1 q hq
        exact ⟨by simp [Stream.xfer, awStream, this, hs.2.1], by simp [Stream.xfer, arStream, this, hs.2.2.2]⟩)
      refine .inr ⟨u, rfl, ⟨h4, by rw [h5]; exact hs.2.1, by rw [h5]; exact hs.2.2.1, by rw [h5]; exact hs.2.2.2⟩, ?_, ?_⟩
      · show (t ++ []).length ≤ n
        rw [List.append_nil]; exact h2
      · show (d.run (t ++ [])).Rest (hot && n == 0) r
        rw [List.append_nil]
        have : t.isEmpty = (n == 0) := by
          have := hlen _ rfl
          simp only at this
          cases t <;> subst this <;> rfl
        rw [← this]
        exact k1
    · simp only at h3
      subst h3
      exact .inl ⟨⟨u, rfl⟩, hblk u rfl⟩

/-- The whole test. -/
theorem demo_use (ops : List AxOp) : ∀ (hot : Bool) (r : Regs) (d : DemoDev) (s : Sim AxIn AxAll), (∀ op ∈ ops, RegOp op) → Spaced hot ops → AxReady s → d.Rest hot r →
    d.Drives (wholeRun (axUse demoCfg ops s).2) → (ops.map regCost).sum ≤ s.rest.length →
    ∃ s', (axUse demoCfg ops s).2.2 = .ok () s' ∧ AxReady s' ∧ (axUse demoCfg ops s).1 = r.outcomes ops ∧ (axUse demoCfg ops s).2.1.length ≤ (ops.map regCost).sum ∧
      ∃ hot', (d.run (axUse demoCfg ops s).2.1).Rest hot' (r.final ops) := by
  induction ops with
  | nil => intro hot r d s _ _ hs h _ _; exact ⟨s, rfl, hs, rfl, Nat.le_refl _, hot, h⟩
  | cons op ops ih =>
    intro hot r d s hops hsp hs h hd hc
    have hgood := axUse_good demoCfg (op :: ops) s
    have hg : ∀ i ∈ s.cur :: s.rest, GoodBeat 4 i ∧ GoodResp i := by
      intro i hi
      refine drives_good _ d hd i ?_
      have e : (wholeRun (axUse demoCfg (op :: ops) s).2).map Prod.snd = s.cur :: s.rest := by
        rw [hgood.1]
        simp [wholeRun, Function.comp_def]
      rw [e]
      exact hi
    have hpre : ∃ u, (axUse demoCfg (op :: ops) s).2.1 = (axStep demoCfg op s).1 ++ u := by
      rw [axUse_eq]
      generalize axStep demoCfg op s = x
      obtain ⟨t, e⟩ := x
      cases e with
      | ok => exact ⟨_, rfl⟩
      | err e => cases e <;> first | exact ⟨_, rfl⟩ | exact ⟨[], (List.append_nil _).symm⟩
      | blocked => exact ⟨[], (List.append_nil _).symm⟩
    have hd1 : d.Drives (axStep demoCfg op s).1 := by
      obtain ⟨u, hu⟩ := hpre
      unfold wholeRun at hd
      rw [hu, List.append_assoc, drives_append] at hd
      exact hd.1
    have key := demo_step op ops (hops op (by simp)) hsp s hs hg h hd1
    have g1 := axStep_good demoCfg op s
    have hlen := congrArg List.length g1.1
    simp only [List.length_cons, List.length_append, List.length_map] at hlen
    simp only [List.map_cons, List.sum_cons] at hc ⊢
    rcases key with ⟨⟨s', k1⟩, k2⟩ | ⟨s', k1, k2, k3, k4⟩
    · exfalso
      have := g1.2 s' k1
      rw [k1] at hlen
      simp only [End.sim, this, List.length_nil] at hlen
      omega
    · have hcons := axUse_cons demoCfg op ops s (axStep demoCfg op s).1 (r.outcome op) s' (by rw [← k1]) (by
        intro e he
        cases op <;> simp only [Regs.outcome] at he <;> first | cases he | (split at he <;> cases he; exact ⟨_, rfl⟩))
      have hrest : s'.rest.length + (axStep demoCfg op s).1.length = s.rest.length := by
        have : (axStep demoCfg op s).2.sim = s' := by rw [k1]; cases r.outcome op <;> rfl
        rw [this] at hlen
        omega
      rw [hcons] at hd ⊢
      have hd2 : (d.run (axStep demoCfg op s).1).Drives (wholeRun (axUse demoCfg ops s').2) := by
        unfold wholeRun at hd ⊢
        simp only [List.append_assoc] at hd
        rw [drives_append] at hd
        exact hd.2
      obtain ⟨s2, m1, m2, m3, m4, m5⟩ := ih (hotAfter hot op) (r.after op) _ s' (fun x hx => hops x (by simp [hx])) hsp.tail k2 k4 hd2 (by omega)
      refine ⟨s2, m1, m2, ?_, ?_, ?_⟩
      · show _ :: _ = _ :: _; rw [m3]
      · simp only [List.length_append]; omega
      · obtain ⟨hot', m5⟩ := m5
        exact ⟨hot', by rw [demoRun_append]; exact m5⟩

/-- The registers keep their values when nothing is on the bus. -/
theorem demo_idle (o : AxAll) (ho : o.1.1.valid = .zero ∧ o.2.valid = .zero) (is : List AxIn) (h : d.Rest hot r) (hd : d.Drives (is.map (fun i => (o, i)))) :
    (d.run (is.map (fun i => (o, i)))).temp0 = r.r0 ∧ (d.run (is.map (fun i => (o, i)))).temp1 = r.r4 := by
  obtain ⟨k, _⟩ := h.run demoCfg _ hd (by
    intro q hq
    obtain ⟨i, _, rfl⟩ := List.mem_map.1 hq
    exact ⟨by simp [Stream.xfer, awStream, ho.1], by simp [Stream.xfer, arStream, ho.2]⟩)
  exact ⟨k.t0, k.t1⟩

end CocotbBus
