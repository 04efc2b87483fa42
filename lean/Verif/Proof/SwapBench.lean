import Mathlib.Data.List.ReduceOption
import Verif.Proof.EndianSwapper
import Verif.Proof.Online

/-!
The test of the endian swapper: driver, device, the two monitors and the scoreboard.
-/

namespace CocotbBus
open Spec Coro

theorem pkEdges_reports (t : List (PkCfg × (PkOut × PkIn))) : ∀ st, (pkEdges t st).reduceOption = (pkMonitorDyn t st).1 := by
  induction t with
  | nil => intro st; rfl
  | cons r t ih =>
    intro st
    obtain ⟨c, o, i⟩ := r
    rw [pkEdges, pkMonitorDyn]
    cases pkStep c st o i with
    | error e => simp
    | ok x =>
      obtain ⟨st', rep⟩ := x
      cases rep <;> simp [ih]

theorem pkEdges_length (t : List (PkCfg × (PkOut × PkIn))) : ∀ st, (pkEdges t st).length = t.length := by
  induction t with
  | nil => intro st; rfl
  | cons r t ih =>
    intro st
    obtain ⟨c, o, i⟩ := r
    rw [pkEdges]
    cases pkStep c st o i with
    | error e => simp
    | ok x => simp [ih]

theorem pkEdges_take (t : List (PkCfg × (PkOut × PkIn))) : ∀ (k : Nat) (st), pkEdges (t.take k) st = (pkEdges t st).take k := by
  induction t with
  | nil => intro k st; simp [pkEdges]
  | cons r t ih =>
    intro k st
    cases k with
    | zero => simp [pkEdges]
    | succ k =>
      obtain ⟨c, o, i⟩ := r
      rw [List.take_succ_cons, pkEdges, pkEdges]
      cases pkStep c st o i with
      | error e => simp [List.map_take]
      | ok x => simp [ih]

theorem swapRun_take (inOrder : Bool) (out : PkCfg) (t : List (PkOut × PkIn)) : ∀ (k : Nat) (d prev order csr),
    swapRun inOrder out d prev order csr (t.take k) = (swapRun inOrder out d prev order csr t).take k := by
  induction t with
  | nil => intro k d prev order csr; simp [swapRun]
  | cons r t ih =>
    intro k d prev order csr
    cases k with
    | zero => simp [swapRun]
    | succ k => obtain ⟨o, i⟩ := r; simp [swapRun, ih]

theorem swapRun_length (inOrder : Bool) (out : PkCfg) (t : List (PkOut × PkIn)) : ∀ d prev order csr,
    (swapRun inOrder out d prev order csr t).length = t.length := by
  induction t with
  | nil => intro d prev order csr; rfl
  | cons r t ih => intro d prev order csr; obtain ⟨o, i⟩ := r; simp [swapRun, ih]

theorem inputsOf_edge (first : Bool) (a b : Option PkReport) (l : List (IoOp PkReport)) : inputsOf (benchEdge first a b ++ l) = a.toList ++ inputsOf l := by
  cases first <;> cases a <;> cases b <;> simp [benchEdge, inputsOf]

theorem outputsOf_edge (first : Bool) (a b : Option PkReport) (l : List (IoOp PkReport)) :
    outputsOf (benchEdge first a b ++ l) = b.toList ++ outputsOf l := by
  cases first <;> cases a <;> cases b <;> simp [benchEdge, outputsOf]

theorem bench_inputs (as : List (Option PkReport)) : ∀ (bs : List (Option PkReport)) (first : Nat → Bool), bs.length = as.length →
    inputsOf (benchOps first as bs) = as.reduceOption ∧ outputsOf (benchOps first as bs) = bs.reduceOption := by
  induction as with
  | nil => intro bs first h; cases bs with
    | nil => exact ⟨rfl, rfl⟩
    | cons b bs => simp at h
  | cons a as ih =>
    intro bs first h
    cases bs with
    | nil => simp at h
    | cons b bs =>
      obtain ⟨h1, h2⟩ := ih bs (fun k => first (k + 1)) (by simpa using h)
      rw [benchOps, inputsOf_edge, outputsOf_edge, h1, h2]
      cases a <;> cases b <;> simp

/-- if every output of an edge belongs to an input of an earlier edge, the order within an edge does not matter -/
theorem bench_credit (as : List (Option PkReport)) : ∀ (bs : List (Option PkReport)) (first : Nat → Bool) (x y : Nat),
    (∀ k, y + (bs.take (k + 1)).reduceOption.length ≤ x + (as.take k).reduceOption.length) →
    ∀ p r q, benchOps first as bs = p ++ .output r :: q → y + (outputsOf p).length < x + (inputsOf p).length := by
  induction as with
  | nil => intro bs first x y _ p r q h; simp [benchOps] at h
  | cons a as ih =>
    intro bs first x y hk p r q h
    cases bs with
    | nil => simp [benchOps] at h
    | cons b bs =>
      rw [benchOps] at h
      have h0 := hk 0
      have hrest : ∀ k, (y + b.toList.length) + (bs.take (k + 1)).reduceOption.length ≤ (x + a.toList.length) + (as.take k).reduceOption.length := by
        intro k
        have := hk (k + 1)
        cases a <;> cases b <;> simp at this ⊢ <;> omega
      have hin : ∀ (p' : List (IoOp PkReport)), benchOps (fun k => first (k + 1)) as bs = p' ++ .output r :: q →
          p = benchEdge (first 0) a b ++ p' → y + (outputsOf p).length < x + (inputsOf p).length := by
        intro p' h1 h2
        have := ih bs _ _ _ hrest p' r q h1
        rw [h2, inputsOf_edge, outputsOf_edge]
        simp only [List.length_append]
        omega
      rcases List.append_eq_append_iff.1 h with ⟨m, hm1, hm2⟩ | ⟨m, hm1, hm2⟩
      · exact hin m hm2 hm1
      · cases m with
        | nil => exact hin [] (by simpa using hm2.symm) (by simpa using hm1.symm)
        | cons z m =>
          rw [List.cons_append] at hm2
          obtain ⟨rfl, -⟩ := List.cons.inj hm2
          -- the output is one of this edge
          have : ∃ r', b = some r' := by
            cases b with
            | some r' => exact ⟨r', rfl⟩
            | none =>
              have hmem : IoOp.output r ∈ benchEdge (first 0) a none := by rw [hm1]; simp
              cases a <;> cases first 0 <;> simp [benchEdge] at hmem
          obtain ⟨r', rfl⟩ := this
          have hy : outputsOf p = [] := by
            have h1 : outputsOf (benchEdge (first 0) a (some r')) = [r'] := by
              have := outputsOf_edge (first 0) a (some r') []
              rw [List.append_nil] at this
              rw [this]; rfl
            rw [hm1, outputsOf_append, outputsOf] at h1
            have := congrArg List.length h1
            simp only [List.length_append, List.length_cons, List.length_nil] at this
            exact List.length_eq_zero_iff.1 (by omega)
          rw [hy]
          simp at h0 ⊢
          omega

theorem beatsIn_append (c : PkCfg) (a b : List (PkOut × PkIn)) : beatsIn c (a ++ b) = beatsIn c a ++ beatsIn c b := by
  simp [beatsIn]

theorem ended_append (a b : List PkOut) : ended (a ++ b) = ended a + ended b := by
  simp [ended]

/-- an output beat was taken at the input at an earlier edge -/
theorem swap_earlier (c : PkCfg) (hrd : c.hasReady = true) (d : SwapDev) (csr : Nat → Option Bool) (t : List (PkOut × PkIn)) (r : PkOut × PkIn)
    (hres : inReset r.2.resetN r.2.reset = .ok false)
    (pend : Option PkOut) (done : List PkOut) (hd : beatsIn c (t ++ [r]) = done ++ pend.toList)
    (hfree : pend = none → (swapAfter d csr (t ++ [r])).eop = .one ∧ (swapAfter d csr (t ++ [r])).flush = .zero)
    (hfl : Known (swapAfter d csr t).flush) :
    ended done ≤ ended (beatsIn c t) := by
  rw [beatsIn_append, beatsIn_cons c hrd r [] hres] at hd
  have hnil : beatsIn c [] = [] := rfl
  rw [hnil, List.append_nil] at hd
  have hsum : ended done + ended pend.toList = ended (beatsIn c t) + ended (if takes r then [r.1] else []) := by
    rw [← ended_append, ← ended_append, hd]
  cases htk : takes r with
  | false =>
    rw [htk] at hsum
    simp [ended] at hsum
    simp only [ended]
    omega
  | true =>
    cases pend with
    | none =>
      exfalso
      obtain ⟨h1, h2⟩ := hfree rfl
      rw [swapAfter_append] at h1 h2
      obtain ⟨o, i⟩ := r
      simp only [takes, Bool.and_eq_true, beq_iff_eq] at htk
      obtain ⟨hv, hr⟩ := htk
      simp only [swapAfter, SwapDev.step, hv, hr] at h1 h2
      rw [if_pos (by decide)] at h1
      rcases hfl with hfl | hfl <;> rw [hfl, h1] at h2 <;> revert h2 <;> decide
    | some b =>
      rw [htk] at hd
      have := List.append_inj' hd rfl
      exact Nat.le_of_eq (by rw [← this.1])

theorem walk_prefix {I O γ : Type} (upd : γ → O × I → γ) (acc : γ → O × I → Prop) (t : List (O × I)) (k : Nat) (g : γ) (h : Walk upd acc g t) :
    Walk upd acc g (t.take k) := by
  rw [← List.take_append_drop k t, walk_append] at h
  exact h.1

theorem beatsIn_take (c : PkCfg) (t : List (PkOut × PkIn)) (k : Nat) : beatsIn c (t.take k) <+: beatsIn c t := by
  conv_rhs => rw [← List.take_append_drop k t, beatsIn_append]
  exact ⟨_, rfl⟩

/-- outputs up to an edge are not more than inputs before it -/
theorem swap_credit (c : PkCfg) (n : Nat) (hch : c.channelW = none) (hrd : c.hasReady = true) (hto : c.invalidTimeout = 0)
    (ps : List (Bytes × Option Nat × List PkOut)) (hn : ∀ p ∈ ps, p.2.1 = none) (hps : ∀ p ∈ ps, PacketOn c n p.1 p.2.1 p.2.2)
    (data empty : LogicArray) (prev : Logic) (order : Bool) (csr : Nat → Option Bool) (t : List (PkOut × PkIn))
    (hwalk : Walk sopUpd SopAcc (prev, false) t) (hready : ∀ r ∈ t, Known r.2.ready) (hres : ∀ r ∈ t, inReset r.2.resetN r.2.reset = .ok false)
    (hp : beatsIn c t <+: ps.flatMap (fun p => p.2.2)) (k : Nat) :
    (pkMonitorDyn (swapRun c.highFirst c (.reset data empty) prev order csr (t.take (k + 1))) {}).1.length ≤ ended (beatsIn c (t.take k)) := by
  have hpre : ∀ j, beatsIn c (t.take j) <+: ps.flatMap (fun p => p.2.2) := fun j => (beatsIn_take c t j).trans hp
  have mon := fun j => swap_monitor c n hch hrd hto ps hn hps data empty prev order csr (t.take j) (walk_prefix _ _ t j _ hwalk)
    (fun r hr => hready r (List.mem_of_mem_take hr)) (fun r hr => hres r (List.mem_of_mem_take hr)) (hpre j)
  have hle : ∀ (done : List PkOut) (m : Nat) (l : List PkReport), ended done ≤ m → (l.take (ended done)).length ≤ m := by
    intro done m l h
    rw [List.length_take]
    omega
  obtain ⟨pend, done, st, h1, h2, h3, h4, h5, h6⟩ := mon (k + 1)
  rw [h6]
  apply hle
  by_cases hk : k < t.length
  · obtain ⟨-, -, -, -, h2', -⟩ := mon k
    have hlast : t.take (k + 1) = t.take k ++ [t[k]] := (List.take_append_getElem hk).symm
    rw [hlast] at h1 h3
    exact swap_earlier c hrd _ csr (t.take k) t[k] (hres _ (List.getElem_mem hk)) pend done h1 (fun h => ⟨(h3 h).1, (h3 h).2.1⟩) h2'
  · rw [List.take_of_length_le (by omega)] at h1 ⊢
    have : ended (beatsIn c t) = ended done + ended pend.toList := by rw [h1, ended_append]
    omega

theorem swap_count_lt (t : List (PkOut × PkIn)) : ∀ (d : SwapDev) (csr : Nat → Option Bool), d.count < 2 ^ 32 → (swapAfter d csr t).count < 2 ^ 32 := by
  induction t with
  | nil => intro d csr h; exact h
  | cons r t ih =>
    intro d csr h
    obtain ⟨o, i⟩ := r
    refine ih _ _ ?_
    simp only [SwapDev.step]
    split
    · exact Nat.mod_lt _ (by decide)
    · exact h

/-- the driver's part of the test, and what comes after it -/
theorem swap_trace (c : PkCfg) (n : Nat) (hb : ByteBus c n) (h8 : c.bitsPerSymbol = 8) (hch : c.channelW = none) (hrd : c.hasReady = true)
    (items : List PkItem) (hne : items ≠ []) (hi : ∀ p ∈ items, p.pkt ≠ [] ∧ p.channel = none) (v : Valids) (s : Sim PkIn PkOut) (hs : s.phase ≠ .ro)
    (u : List (PkOut × PkIn)) (hu : ∀ x ∈ u, ∃ v' s', (pkSendAll c items v s).2 = .ok v' s' ∧ x.1 = s'.out)
    (hres : ∀ r ∈ (pkSendAll c items v s).1 ++ u, inReset r.2.resetN r.2.reset = .ok false) (prev : Logic)
    (hfirst : (∀ p, items.head? = some p → p.sync = true) ∨ prev ≠ .one) :
    ∃ ps : List (Bytes × Option Nat × List PkOut), ps.map (fun p => p.1) = items.map (fun p => p.pkt) ∧ (∀ p ∈ ps, p.2.1 = none) ∧
      (∀ p ∈ ps, PacketOn c n p.1 p.2.1 p.2.2) ∧ Walk sopUpd SopAcc (prev, false) ((pkSendAll c items v s).1 ++ u) ∧
      (∀ x ∈ u, x.1.valid = .zero) ∧
      beatsIn c ((pkSendAll c items v s).1 ++ u) <+: ps.flatMap (fun p => p.2.2) ∧
      ((∃ v' s', (pkSendAll c items v s).2 = .ok v' s') → beatsIn c ((pkSendAll c items v s).1 ++ u) = ps.flatMap (fun p => p.2.2)) := by
  obtain ⟨hw, hq⟩ := sop_sendAll c items (fun p hp => (hi p hp).2) v (prev, false) s ⟨hs, hfirst.imp id (fun h h' => absurd h' h)⟩
  have hz : ∀ x ∈ u, x.1.valid = .zero := by
    intro x hx
    obtain ⟨v', s', h1, h2⟩ := hu x hx
    rw [h2]
    exact (hq v' s' h1).2 hne
  have hwu : ∀ (u : List (PkOut × PkIn)) (g : Logic × Bool), (∀ x ∈ u, x.1.valid = .zero) → Walk sopUpd SopAcc g u := by
    intro u
    induction u with
    | nil => intro g _; trivial
    | cons x u ih => intro g h; exact ⟨.idle (h x (by simp)), ih _ (fun y hy => h y (by simp [hy]))⟩
  have hbu : beatsIn c u = [] := by
    rw [beatsIn, List.filterMap_eq_nil_iff]
    intro x hx
    rw [event_of c hrd x (hres x (by simp [hx]))]
    simp [takes, hz x hx, PkEvent.beat?]
  have hci : ∀ p ∈ items, p.pkt ≠ [] ∧ ChannelOk c p.channel := by
    intro p hp
    obtain ⟨h1, h3⟩ := hi p hp
    exact ⟨h1, by rw [h3]; simp [ChannelOk, hch]⟩
  obtain ⟨k, hk, h1, -, -, -, h4⟩ := pkSendAll_runs c n hb items hci v s hs
  obtain ⟨ps, p1, p2, p3, p4, p5⟩ := driver_packets c n hb hch h8 items hi (pkSendAll c items v s).1
    (fun r hr => hres r (by simp [hr])) k h1
  refine ⟨ps, p1, p2, p3, ?_, hz, ?_, ?_⟩
  · rw [walk_append]
    exact ⟨hw, hwu u _ hz⟩
  · rw [beatsIn_append, hbu, List.append_nil]
    exact p4
  · rintro ⟨v', s', h⟩
    rw [beatsIn_append, hbu, List.append_nil]
    apply p5
    rcases h4 with ⟨h4, -⟩ | ⟨-, s2, h4, -⟩
    · exact Nat.le_of_eq h4.symm
    · rw [h] at h4; cases h4

theorem packets_last (c : PkCfg) (n : Nat) (ps : List (Bytes × Option Nat × List PkOut)) (h : ∀ p ∈ ps, PacketOn c n p.1 p.2.1 p.2.2) (o : PkOut)
    (ho : (ps.flatMap (fun p => p.2.2)).getLast? = some o) : o.eop = .one := by
  induction ps with
  | nil => cases ho
  | cons p r ih =>
    rw [List.flatMap_cons, List.getLast?_append] at ho
    cases hr : (r.flatMap (fun p => p.2.2)).getLast? with
    | some x =>
      rw [hr] at ho
      cases ho
      exact ih (fun q hq => h q (by simp [hq])) hr
    | none =>
      rw [hr] at ho
      obtain ⟨bodies, lastB, last, h1, -, -, h2⟩ := (h p (by simp)).shape
      rw [h1, List.getLast?_concat] at ho
      cases ho
      exact h2.eop

end CocotbBus
