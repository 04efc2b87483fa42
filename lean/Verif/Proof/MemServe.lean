import Verif.Proof.MemBurstW

/-! # Sequences of read bursts of `AvalonMemory` -/

namespace CocotbBus
open Spec Coro

theorem readsServed_play (c : MemCfg) (mem : Nat → Option Nat) : ∀ (ps : List (LogicArray × Logic × Logic)) (last : LogicArray × Logic × Logic) (l : List MemIn),
    readsServed c mem ps last l = ps.take l.length ++ readsServed c mem [] ((last :: ps).getLast (by simp)) (l.drop ps.length) := by
  intro ps
  induction ps with
  | nil => intro last l; simp
  | cons p ps ih =>
    intro last l
    cases l with
    | nil => simp [readsServed]
    | cons i l =>
      rw [readsServed, ih]
      simp [List.getLast_cons]

theorem burstReadPins_length (c : MemCfg) (mem : Nat → Option Nat) (rd : LogicArray) (a n : Nat) :
    (burstReadPins c mem rd a n).length = c.readLatency + 3 + n := by
  simp only [burstReadPins, List.length_append, List.length_map, List.length_range, List.length_replicate, List.length_cons, List.length_nil]
  omega

theorem readsServed_read (c : MemCfg) (mem : Nat → Option Nat) (last : LogicArray × Logic × Logic) (i : MemIn) (l : List MemIn) (hi : i.read = .one) :
    let ps := burstReadPins c mem last.1 (bitsToNat i.address) (bitsToNat i.burstcount)
    readsServed c mem [] last (i :: l) = ps.take (l.length + 1) ++ readsServed c mem [] ((last :: ps).getLast (by simp)) ((i :: l).drop ps.length) := by
  intro ps
  have hl := burstReadPins_length c mem last.1 (bitsToNat i.address) (bitsToNat i.burstcount)
  rw [readsServed, if_pos hi]
  change (match ps with | [] => [] | p :: q => p :: readsServed c mem q p l) = _
  change ps.length = _ at hl
  clear_value ps
  cases ps with
  | nil => simp at hl; omega
  | cons p ps =>
    simp only
    rw [readsServed_play]
    simp [List.getLast_cons]

theorem memShown_getLast {α : Type} (r : Res MemIn MemOut α) (h : memShown r ≠ []) : (memShown r).getLast h = memPins r.2.sim.out := by
  simp [memShown]

theorem memRespond_served {c : MemCfg} (hc : BurstMem c) (rand : Nat → Nat) (mem : Nat → Option Nat) : ∀ (n : Nat) (s : Sim MemIn MemOut), s.rest.length ≤ n →
    s.out.responses = [] → s.out.mem = mem → (∀ i ∈ s.rest, i.write ≠ .one ∧ (i.read = .one → BurstAsked c mem i)) →
    memShown (memRespond c rand s) = memPins s.out :: readsServed c mem [] (memPins s.out) s.rest ∧
    ∃ s', (memRespond c rand s).2 = .blocked s' := by
  intro n
  induction n with
  | zero =>
    intro s hn hresp hm hin
    have h0 : s.rest = [] := List.eq_nil_of_length_eq_zero (by omega)
    rw [memRespond_unfold, memCycle]
    simp only [bind_assoc_run]
    rw [shown_edge_nil _ _ h0, bind_awaitEdge_nil _ _ h0, h0]
    exact ⟨rfl, s, rfl⟩
  | succ n ih =>
    intro s hn hresp hm hin
    cases hr : s.rest with
    | nil =>
      rw [memRespond_unfold, memCycle]
      simp only [bind_assoc_run]
      rw [shown_edge_nil _ _ hr, bind_awaitEdge_nil _ _ hr]
      exact ⟨rfl, s, rfl⟩
    | cons i r =>
      rw [hr] at hin hn
      simp only [List.length_cons] at hn
      have hi := hin i (by simp)
      rw [memRespond_unfold, bind_run]
      by_cases hrd : i.read = .one
      · have ask := hi.2 hrd
        have h := memCycle_read_shows hc rand s hresp i r hr hrd (fun j hj => (hin j (by rw [← hr]; exact List.mem_of_getElem? hj)).1) ask.address ask.count ask.aligned (hm ▸ ask.there)
        have hps := readsServed_read c mem (memPins s.out) i r hrd
        have hpl := burstReadPins_length c mem s.out.readdata (bitsToNat i.address) (bitsToNat i.burstcount)
        rw [hm] at h
        simp only at hps
        rw [hps]
        change Shows _ _ (burstReadPins c mem (memPins s.out).1 _ _) _ at h
        change (burstReadPins c mem (memPins s.out).1 _ _).length = _ at hpl
        generalize burstReadPins c mem (memPins s.out).1 (bitsToNat i.address) (bitsToNat i.burstcount) = ps at h hpl ⊢
        obtain ⟨g1, g2⟩ := memCycle_good c rand s
        cases hx : memCycle c rand s with
        | mk t e =>
        rw [hx] at h g1 g2
        simp only at g1 g2
        rw [hr] at g1
        have gl := congrArg List.length g1
        cases e with
        | err e s' => exact absurd rfl (h.err e s')
        | blocked s' =>
          have h0 := g2 s' rfl
          simp only [End.sim, h0, List.length_cons, List.length_append, List.length_map, List.length_nil] at gl
          have hp := h.pre
          have hsl : (memShown (t, (End.blocked s' : End MemIn MemOut Unit))).length = r.length + 2 := by simp [memShown]; omega
          have hle := hp.length_le
          rw [hsl, List.length_cons] at hle
          obtain ⟨q, hq⟩ := hp
          have htake := congrArg (List.take (r.length + 2)) hq
          rw [List.take_left' hsl, List.take_succ_cons] at htake
          have hdrop : (i :: r).drop ps.length = [] := List.drop_eq_nil_of_le (by simp; omega)
          rw [hdrop, readsServed, List.append_nil]
          exact ⟨htake, s', rfl⟩
        | ok a s' =>
          obtain ⟨k1, k2, k3, -⟩ := h.ok a s' rfl
          have hsl := congrArg List.length k1
          simp only [memShown, List.length_append, List.length_map, List.length_cons, List.length_nil] at hsl
          simp only [End.sim, List.length_cons, List.length_append, List.length_map] at gl
          have hrest : s'.rest = (i :: r).drop ps.length := by
            have := congrArg (List.drop ((t.map Prod.snd).length + 1)) g1
            rw [List.drop_succ_cons, ← List.drop_drop, List.drop_left] at this
            rw [show ps.length = (t.map Prod.snd).length by simp; omega, this]
            rfl
          have hlast : (memPins s.out :: ps).getLast (by simp) = memPins s'.out := by
            have := memShown_getLast (t, (End.ok a s' : End MemIn MemOut Unit)) (by rw [k1]; simp)
            simp only [k1] at this
            exact this
          have hlen' : s'.rest.length ≤ n := by rw [hrest, List.length_drop]; simp; omega
          obtain ⟨i1, s2, i2⟩ := ih s' hlen' k2 k3 (fun j hj => hin j (by rw [hrest] at hj; exact List.mem_of_mem_drop hj))
          rw [andThen_ok]
          refine ⟨?_, s2, i2⟩
          rw [hlast, ← hrest]
          have : memShown (t ++ (memRespond c rand s').1, (memRespond c rand s').2) = t.map (fun q => memPins q.1) ++ memShown (memRespond c rand s') := by
            simp [memShown]
          rw [this, i1]
          have hk : t.map (fun q => memPins q.1) ++ [memPins s'.out] = memPins s.out :: ps := k1
          rw [List.take_of_length_le (by omega)]
          rw [show ∀ (x : LogicArray × Logic × Logic) l, t.map (fun q => memPins q.1) ++ x :: l = (t.map (fun q => memPins q.1) ++ [x]) ++ l by simp, hk]
          simp
      · rw [memCycle_idle hc rand s hresp i r hr hrd hi.1, andThen_ok]
        obtain ⟨i1, s2, i2⟩ := ih ⟨.ro, { s.out with responses := [], readdatavalid := .zero }, s.cur, i, r⟩ (by simp; omega) rfl hm
          (fun j hj => hin j (by simp only at hj; simp [hj]))
        refine ⟨?_, s2, i2⟩
        have : memShown ([(s.out, s.cur)] ++ (memRespond c rand ⟨.ro, { s.out with responses := [], readdatavalid := .zero }, s.cur, i, r⟩).1,
            (memRespond c rand ⟨.ro, { s.out with responses := [], readdatavalid := .zero }, s.cur, i, r⟩).2) =
            memPins s.out :: memShown (memRespond c rand ⟨.ro, { s.out with responses := [], readdatavalid := .zero }, s.cur, i, r⟩) := by
          simp [memShown]
        rw [this, i1, readsServed, if_neg hrd]
        rfl

end CocotbBus
