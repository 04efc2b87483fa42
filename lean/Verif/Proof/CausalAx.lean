import Verif.Proof.Closed
import Verif.Proof.AxiLive
import Verif.Proof.AxiTry
import Verif.Proof.MmExists
import Verif.Spec.AxiDemo

/-! # The AXI master is causal

Except for one thing: the exception of one of the two tasks of a write is reported after the other has ended or got stuck (`combine`), so that the end of a
run may change with a further cycle. -/

namespace CocotbBus
open Spec Coro
variable {I O P α β D : Type}

/-- the end of a run with one more cycle that is not used -/
def End.snoc (i : I) : End I O α → End I O α
  | .ok a s => .ok a (s.snoc i)
  | .err e s => .err e (s.snoc i)
  | .blocked s => .blocked (s.snoc i)

/-- a run that may go on with one more cycle -/
def End.Open : End I O α → Prop
  | .ok _ _ => False
  | .err e _ => ∀ n, e ≠ .axiProtocol n
  | .blocked _ => True

/-- one more cycle is used, with the values that were there at the end -/
def GoesOn (r r' : Res I O α) : Prop := r.2.Open ∧ r.2.sim.rest = [] ∧ ∃ q t' e, r' = (r.1 ++ q :: t', e) ∧ q.1 = r.2.sim.out

def CausalW (x : M I O α) : Prop := ∀ s : Sim I O, (x s).1.length + (x s).2.sim.rest.length = s.rest.length ∧
  ∀ i, x (s.snoc i) = ((x s).1, (x s).2.snoc i) ∨ GoesOn (x s) (x (s.snoc i))

theorem Causal.weak {x : M I O α} (hx : Causal x) : CausalW x := by
  intro s
  obtain ⟨h1, h2⟩ := hx s
  refine ⟨h1, fun i => ?_⟩
  have h2 := h2 i
  cases hr : x s with
  | mk t e =>
    rw [hr] at h2
    cases e with
    | ok a s' => exact .inl h2
    | err a s' => exact .inl h2
    | blocked s' =>
      rcases h2 with h2 | ⟨h3, q, t', e, h4, h5⟩
      · exact .inl h2
      · exact .inr ⟨trivial, h3, q, t', e, h4, h5⟩

theorem CausalW.bind {x : M I O α} {f : α → M I O β} (hx : CausalW x) (hf : ∀ a, CausalW (f a)) : CausalW (x >>= f) := by
  intro s
  obtain ⟨h1, h2⟩ := hx s
  rw [bind_run]
  simp only [bind_run]
  have more : ∀ (t : List (O × I)) (q : O × I) (t'' : List (O × I)) (e : End I O α), ∃ t3 e3, Res.andThen (t ++ q :: t'', e) f = (t ++ q :: t3, e3) := by
    intro t q t'' e
    cases e with
    | ok a s'' => exact ⟨t'' ++ (f a s'').1, (f a s'').2, by rw [andThen_ok, List.append_assoc, List.cons_append]⟩
    | err a s'' => exact ⟨t'', _, rfl⟩
    | blocked s'' => exact ⟨t'', _, rfl⟩
  cases hr : x s with
  | mk t e =>
    rw [hr] at h1
    simp only [hr] at h2
    cases e with
    | ok a s' =>
      obtain ⟨g1, g2⟩ := hf a s'
      refine ⟨?_, fun i => ?_⟩
      · simp only [andThen_ok, List.length_append]
        have h1 : t.length + s'.rest.length = s.rest.length := h1
        omega
      · rcases h2 i with h2 | h2
        · have h2 : x (s.snoc i) = (t, .ok a (s'.snoc i)) := h2
          rw [h2, andThen_ok, andThen_ok]
          rcases g2 i with g2 | ⟨g1, g2, q, t', e, g3, g4⟩
          · rw [g2]; exact .inl rfl
          · refine .inr ⟨g1, g2, q, t', e, ?_, g4⟩
            rw [g3, List.append_assoc]
        · exact h2.1.elim
    | err e s' =>
      refine ⟨h1, fun i => ?_⟩
      rcases h2 i with h2 | ⟨h2, h3, q, t'', e'', h4, h5⟩
      · rw [h2]; exact .inl rfl
      · obtain ⟨t3, e3, h6⟩ := more t q t'' e''
        exact .inr ⟨h2, h3, q, t3, e3, by rw [h4]; exact h6, h5⟩
    | blocked s' =>
      refine ⟨h1, fun i => ?_⟩
      rcases h2 i with h2 | ⟨h2, h3, q, t'', e'', h4, h5⟩
      · rw [h2]; exact .inl rfl
      · obtain ⟨t3, e3, h6⟩ := more t q t'' e''
        exact .inr ⟨h2, h3, q, t3, e3, by rw [h4]; exact h6, h5⟩

/-! ### Two tasks -/

theorem joinTrace_length (t : List (O × I)) (lo : O) (lp : P) : ∀ u : List (P × I), (joinTrace t lo u lp).length = max t.length u.length := by
  induction t with
  | nil => intro u; simp [joinTrace]
  | cons r t ih => intro u; obtain ⟨o, i⟩ := r; rw [joinTrace, List.length_cons, ih]; simp; omega

theorem joinTrace_snoc_left (t : List (O × I)) (lo lo' : O) (lp : P) (q : O × I) : ∀ u : List (P × I), u.length ≤ t.length →
    joinTrace (t ++ [q]) lo' u lp = joinTrace t lo u lp ++ [((q.1, lp), q.2)] := by
  induction t with
  | nil => intro u h; cases u with
    | nil => obtain ⟨o, i⟩ := q; rfl
    | cons a b => simp at h
  | cons r t ih =>
    intro u h
    obtain ⟨o, i⟩ := r
    rw [List.cons_append, joinTrace, joinTrace, ih _ (by simp at h ⊢; omega), List.cons_append]

theorem joinTrace_snoc_right (t : List (O × I)) (lo : O) (lp lp' : P) (q : P × I) : ∀ u : List (P × I), t.length ≤ u.length →
    joinTrace t lo (u ++ [q]) lp' = joinTrace t lo u lp ++ [((lo, q.1), q.2)] := by
  induction t with
  | nil => intro u h; simp [joinTrace]
  | cons r t ih =>
    intro u h
    obtain ⟨o, i⟩ := r
    cases u with
    | nil => simp at h
    | cons a u =>
      rw [joinTrace, joinTrace]
      simp only [List.cons_append, List.tail_cons, List.head?_cons]
      rw [ih u (by simpa using h)]
      rfl

theorem joinTrace_snoc_both (t : List (O × I)) (lo lo' : O) (lp lp' : P) (q : O × I) (p : P × I) : ∀ u : List (P × I), t.length = u.length →
    joinTrace (t ++ [q]) lo' (u ++ [p]) lp' = joinTrace t lo u lp ++ [((q.1, p.1), q.2)] := by
  induction t with
  | nil => intro u h; cases u with
    | nil => obtain ⟨o, i⟩ := q; rfl
    | cons a b => simp at h
  | cons r t ih =>
    intro u h
    obtain ⟨o, i⟩ := r
    cases u with
    | nil => simp at h
    | cons a u =>
      rw [List.cons_append, joinTrace, joinTrace]
      simp only [List.cons_append, List.tail_cons, List.head?_cons]
      rw [ih u (by simpa using h)]
      rfl

theorem joinSim_snoc (s : Sim I O) (s' : Sim I P) (i : I) : joinSim (s.snoc i) (s'.snoc i) = (joinSim s s').snoc i := by
  unfold joinSim Sim.snoc
  simp only [List.length_append, List.length_singleton, Nat.add_le_add_iff_right]
  split <;> rfl

theorem joinSim_rest (s : Sim I O) (s' : Sim I P) : (joinSim s s').rest.length = min s.rest.length s'.rest.length := by
  unfold joinSim
  split <;> simp only <;> omega

theorem joinEnd_sim (e : End I O Unit) (e' : End I P Unit) : (joinEnd e e').sim = joinSim e.sim e'.sim := by cases e <;> cases e' <;> rfl

theorem joinEnd_snoc (e : End I O Unit) (e' : End I P Unit) (i : I) : joinEnd (e.snoc i) (e'.snoc i) = (joinEnd e e').snoc i := by
  cases e <;> cases e' <;> simp only [End.snoc, joinEnd, End.sim, joinSim_snoc]

/-- one of two tasks has got stuck -/
theorem joinEnd_open (e : End I O Unit) (e' : End I P Unit) (h : (∃ s, e = .blocked s) ∨ ∃ s, e' = .blocked s) (h1 : ∀ x s, e = .err x s → ∀ n, x ≠ .axiProtocol n)
    (h2 : ∀ x s, e' = .err x s → ∀ n, x ≠ .axiProtocol n) : (joinEnd e e').Open := by
  cases e <;> cases e' <;> simp only [joinEnd, End.Open] <;> simp_all

theorem causal_end {x : M I O α} (hx : Causal x) (s : Sim I O) (i : I) :
    x (s.snoc i) = ((x s).1, (x s).2.snoc i) ∨ ((∃ s', (x s).2 = .blocked s') ∧ (x s).2.sim.rest = [] ∧ ∃ q e, x (s.snoc i) = ((x s).1 ++ [q], e) ∧ q.1 = (x s).2.sim.out ∧ e.sim.rest = []) := by
  obtain ⟨h1, h2⟩ := hx s
  have h3 := (hx (s.snoc i)).1
  have h2 := h2 i
  cases hr : x s with
  | mk t e =>
    rw [hr] at h2 h1
    cases e with
    | ok a s' => exact .inl h2
    | err a s' => exact .inl h2
    | blocked s' =>
      rcases h2 with h2 | ⟨h4, q, t', e, h5, h6⟩
      · exact .inl h2
      · rw [h5] at h3
        have h1 : t.length + s'.rest.length = s.rest.length := h1
        rw [h4] at h1
        simp only [List.length_append, List.length_cons, List.length_nil, Sim.snoc] at h3 h1
        have ht : t' = [] := List.length_eq_zero_iff.1 (by omega)
        have he : e.sim.rest = [] := List.length_eq_zero_iff.1 (by omega)
        subst ht
        exact .inr ⟨⟨s', rfl⟩, h4, q, e, h5, h6, he⟩

theorem CausalW.combine {x : M I O Unit} {y : M I P Unit} (hx : Causal x) (hy : Causal y) (ex : ∀ n, NoErr (.axiProtocol n) x) (ey : ∀ n, NoErr (.axiProtocol n) y) :
    CausalW (combine x y) := by
  intro s
  have l1 := (hx ⟨s.phase, s.out.1, s.prev, s.cur, s.rest⟩).1
  have l2 := (hy ⟨s.phase, s.out.2, s.prev, s.cur, s.rest⟩).1
  refine ⟨?_, fun i => ?_⟩
  · unfold CocotbBus.combine
    simp only [joinTrace_length, joinEnd_sim, joinSim_rest]
    simp only at l1 l2
    omega
  · have c1 := causal_end hx ⟨s.phase, s.out.1, s.prev, s.cur, s.rest⟩ i
    have c2 := causal_end hy ⟨s.phase, s.out.2, s.prev, s.cur, s.rest⟩ i
    have n1 := fun n => ex n ⟨s.phase, s.out.1, s.prev, s.cur, s.rest⟩
    have n2 := fun n => ey n ⟨s.phase, s.out.2, s.prev, s.cur, s.rest⟩
    have hs1 : (⟨s.phase, s.out.1, s.prev, s.cur, s.rest⟩ : Sim I O).snoc i = ⟨s.phase, (s.snoc i).out.1, s.prev, s.cur, (s.snoc i).rest⟩ := rfl
    have hs2 : (⟨s.phase, s.out.2, s.prev, s.cur, s.rest⟩ : Sim I P).snoc i = ⟨s.phase, (s.snoc i).out.2, s.prev, s.cur, (s.snoc i).rest⟩ := rfl
    rw [hs1] at c1
    rw [hs2] at c2
    unfold CocotbBus.combine
    simp only at l1 l2 ⊢
    generalize x ⟨s.phase, s.out.1, s.prev, s.cur, s.rest⟩ = r1 at *
    generalize y ⟨s.phase, s.out.2, s.prev, s.cur, s.rest⟩ = r2 at *
    have hx' : x { phase := (s.snoc i).phase, out := (s.snoc i).out.1, prev := (s.snoc i).prev, cur := (s.snoc i).cur, rest := (s.snoc i).rest } =
      x ⟨s.phase, (s.snoc i).out.1, s.prev, s.cur, (s.snoc i).rest⟩ := rfl
    have hy' : y { phase := (s.snoc i).phase, out := (s.snoc i).out.2, prev := (s.snoc i).prev, cur := (s.snoc i).cur, rest := (s.snoc i).rest } =
      y ⟨s.phase, (s.snoc i).out.2, s.prev, s.cur, (s.snoc i).rest⟩ := rfl
    rw [hx', hy']
    obtain ⟨t1, e1⟩ := r1
    obtain ⟨t2, e2⟩ := r2
    simp only at l1 l2 c1 c2 n1 n2 ⊢
    have o1 : ∀ e s, e1 = .err e s → ∀ n, e ≠ .axiProtocol n := fun e s h n hn => n1 n s (by rw [h, hn])
    have o2 : ∀ e s, e2 = .err e s → ∀ n, e ≠ .axiProtocol n := fun e s h n hn => n2 n s (by rw [h, hn])
    have so : ∀ {Q : Type} (e : End I Q Unit), (e.snoc i).sim.out = e.sim.out := fun e => by cases e <;> rfl
    rcases c1 with c1 | ⟨b1, r1, q1, f1, c1, d1, -⟩ <;> rcases c2 with c2 | ⟨b2, r2, q2, f2, c2, d2, -⟩
    · left
      rw [c1, c2, joinEnd_snoc, so, so]
    · right
      refine ⟨joinEnd_open _ _ (.inr b2) o1 o2, by rw [joinEnd_sim]; exact joinSim_rest_nil _ _ (.inr r2), ((e1.sim.out, q2.1), q2.2), [], joinEnd (e1.snoc i) f2, ?_, ?_⟩
      · rw [c1, c2, so, joinTrace_snoc_right t1 _ e2.sim.out _ _ t2 (by rw [r2, List.length_nil] at l2; omega)]
      · rw [joinEnd_sim, joinSim_out, d2]
    · right
      refine ⟨joinEnd_open _ _ (.inl b1) o1 o2, by rw [joinEnd_sim]; exact joinSim_rest_nil _ _ (.inl r1), ((q1.1, e2.sim.out), q1.2), [], joinEnd f1 (e2.snoc i), ?_, ?_⟩
      · rw [c1, c2, so, joinTrace_snoc_left t1 e1.sim.out _ _ _ t2 (by rw [r1, List.length_nil] at l1; omega)]
      · rw [joinEnd_sim, joinSim_out, d1]
    · right
      refine ⟨joinEnd_open _ _ (.inl b1) o1 o2, by rw [joinEnd_sim]; exact joinSim_rest_nil _ _ (.inl r1), ((q1.1, q2.1), q1.2), [], joinEnd f1 f2, ?_, ?_⟩
      · rw [c1, c2, joinTrace_snoc_both t1 e1.sim.out _ e2.sim.out _ _ _ t2 (by rw [r1, List.length_nil] at l1; rw [r2, List.length_nil] at l2; omega)]
      · rw [joinEnd_sim, joinSim_out, d1, d2]

/-! ### The calls -/

theorem Causal.setAddr (c : AxCfg) (a l size : Nat) (burst : AxiBurst) : Causal (setAddr c a l size burst) :=
  Causal.bind (Causal.writeInt _ _ _) fun _ => Causal.bind (Causal.write _) fun _ => Causal.when _ (Causal.bind (Causal.writeInt _ _ _) fun _ =>
    Causal.bind (Causal.writeInt _ _ _) fun _ => Causal.writeInt _ _ _)

theorem Causal.addrHandshake (ready : AxIn → Logic) : Causal (addrHandshake ready) :=
  Causal.bind (Causal.waitRO _) fun _ => Causal.bind Causal.awaitEdge fun _ => Causal.write _

theorem Causal.sendWriteAddress (c : AxCfg) (a l : Nat) (burst : AxiBurst) (size delay : Nat) (sync : Bool) : Causal (sendWriteAddress c a l burst size delay sync) :=
  Causal.bind (Causal.when _ Causal.awaitEdge) fun _ => Causal.bind (Causal.edges _) fun _ => Causal.bind (Causal.setAddr _ _ _ _ _) fun _ => Causal.addrHandshake _

theorem Causal.wAccept : Causal wAccept :=
  Causal.loop wBody wBody_consumes (fun _ => Causal.bind Causal.awaitEdge fun _ => Causal.bind Causal.inp fun _ => Causal.pure _) ()

theorem Causal.sendBeats (c : AxCfg) (delay : Nat) (l : List (Nat × Nat)) : Causal (sendBeats c delay l) := by
  induction l with
  | nil => exact Causal.pure _
  | cons x l ih =>
    exact Causal.bind (Causal.edges _) fun _ => Causal.bind (Causal.write _) fun _ => Causal.bind (Causal.writeInt _ _ _) fun _ => Causal.bind (Causal.writeInt _ _ _) fun _ =>
      Causal.bind (Causal.when _ (Causal.write _)) fun _ => Causal.bind Causal.wAccept fun _ => Causal.bind (Causal.when _ (Causal.write _)) fun _ => ih

theorem Causal.sendWriteData (c : AxCfg) (a : Nat) (data : List Nat) (burst : AxiBurst) (size delay : Nat) (be : List (Option Nat)) (sync : Bool) :
    Causal (sendWriteData c a data burst size delay be sync) :=
  Causal.bind (Causal.ofExcept _) fun _ => Causal.bind (Causal.when _ Causal.awaitEdge) fun _ => Causal.sendBeats _ _ _

theorem writeInt_noProt {n : Nat} (w v : Nat) (f : LogicArray → O → O) : NoErr (.axiProtocol n) (writeInt w v f : M I O Unit) :=
  NoErr.ite (fun _ => NoErr.write _ (by simp)) (fun _ => NoErr.raise (by simp))

theorem sendWriteAddress_noProt {n : Nat} (c : AxCfg) (a l : Nat) (burst : AxiBurst) (size delay : Nat) (sync : Bool) :
    NoErr (.axiProtocol n) (sendWriteAddress c a l burst size delay sync) := by
  have hw : ∀ f : AddrOut → AddrOut, NoErr (.axiProtocol n) (write f : M AxIn AddrOut Unit) := fun f => NoErr.write f (by simp)
  refine NoErr.bind (NoErr.when _ fun _ => NoErr.awaitEdge) fun _ => NoErr.bind (edges_no _) fun _ => NoErr.bind ?_ fun _ => NoErr.bind ?_ fun _ => NoErr.bind NoErr.awaitEdge fun _ => hw _
  · exact NoErr.bind (writeInt_noProt _ _ _) fun _ => NoErr.bind (hw _) fun _ => NoErr.when _ fun _ => NoErr.bind (writeInt_noProt _ _ _) fun _ =>
      NoErr.bind (writeInt_noProt _ _ _) fun _ => writeInt_noProt _ _ _
  · exact NoErr.bind (NoErr.readOnly _ (by simp)) fun _ => NoErr.loop _ (fun _ => NoErr.bind NoErr.inp fun _ => NoErr.bind (NoErr.ofExcept (by simp)) fun _ =>
      NoErr.ite (fun _ => NoErr.pure _) (fun _ => NoErr.bind NoErr.awaitEdge fun _ => NoErr.bind (NoErr.readOnly _ (by simp)) fun _ => NoErr.pure _)) _

theorem sendBeats_noProt {n : Nat} (c : AxCfg) (delay : Nat) (l : List (Nat × Nat)) : NoErr (.axiProtocol n) (sendBeats c delay l) := by
  have hw : ∀ f : WOut → WOut, NoErr (.axiProtocol n) (write f : M AxIn WOut Unit) := fun f => NoErr.write f (by simp)
  induction l with
  | nil => exact NoErr.pure _
  | cons x l ih =>
    exact NoErr.bind (edges_no _) fun _ => NoErr.bind (hw _) fun _ => NoErr.bind (writeInt_noProt _ _ _) fun _ => NoErr.bind (writeInt_noProt _ _ _) fun _ =>
      NoErr.bind (NoErr.when _ fun _ => hw _) fun _ => NoErr.bind (NoErr.loop _ (fun _ => NoErr.bind NoErr.awaitEdge fun _ => NoErr.bind NoErr.inp fun _ => NoErr.pure _) _) fun _ =>
      NoErr.bind (NoErr.when _ fun _ => hw _) fun _ => ih

theorem axiStrobes_noProt {n : Nat} (size k : Nat) : ∀ (be : List (Option Nat)) (l : List Nat), axiStrobes size k be l ≠ .error (.axiProtocol n) := by
  induction k with
  | zero => intro be l h; simp only [axiStrobes] at h; cases h
  | succ k ih =>
    intro be l h
    cases be with
    | nil =>
      simp only [axiStrobes] at h
      split at h <;> cases h
    | cons b r => simp only [axiStrobes] at h; exact ih _ _ h

theorem sendWriteData_noProt {n : Nat} (c : AxCfg) (a : Nat) (data : List Nat) (burst : AxiBurst) (size delay : Nat) (be : List (Option Nat)) (sync : Bool) :
    NoErr (.axiProtocol n) (sendWriteData c a data burst size delay be sync) := by
  refine NoErr.bind (NoErr.ofExcept ?_) fun _ => NoErr.bind (NoErr.when _ fun _ => NoErr.awaitEdge) fun _ => sendBeats_noProt _ _ _
  have := axiStrobes_noProt (n := n) size data.length be []
  unfold axiWriteBeats
  intro h
  cases hs : axiStrobes size data.length be [] with
  | ok v => rw [hs] at h; cases h
  | error e => rw [hs] at h this; exact this (by cases h; rfl)

theorem Causal.bLoop {O : Type} : Causal (bLoop : M AxIn O Nat) :=
  Causal.loop bBody bBody_consumes (fun _ => Causal.bind (Causal.readOnly _) fun _ => Causal.bind Causal.inp fun _ => Causal.ite
    (Causal.bind (Causal.ofExcept _) fun _ => Causal.pure _) (Causal.bind Causal.awaitEdge fun _ => Causal.pure _)) ()

theorem CausalW.axiWrite (c : AxCfg) (a : Nat) (v : List Nat) (size : Option Int) (burst : AxiBurst) (be : List (Option Nat)) (al dl : Nat) (sync : Bool) :
    CausalW (axiWrite c a v size burst be al dl sync) :=
  CausalW.bind (Causal.ofExcept _).weak fun _ => CausalW.bind (CausalW.combine (Causal.sendWriteAddress _ _ _ _ _ _ _) (Causal.sendWriteData _ _ _ _ _ _ _ _)
    (fun _ => sendWriteAddress_noProt _ _ _ _ _ _ _) (fun _ => sendWriteData_noProt _ _ _ _ _ _ _ _)) fun _ =>
    CausalW.bind Causal.bLoop.weak fun _ => CausalW.bind Causal.awaitEdge.weak fun _ => (Causal.when _ (Causal.raise _)).weak

theorem Causal.axiRead (c : AxCfg) (a : Nat) (len : Int) (size : Option Int) (burst : AxiBurst) (rr sync : Bool) : Causal (axiRead c a len size burst rr sync) :=
  Causal.bind (Causal.ofExcept _) fun sz => Causal.bind (Causal.bind (Causal.when _ Causal.awaitEdge) fun _ => Causal.bind (Causal.setAddr _ _ _ _ _) fun _ => Causal.addrHandshake _) fun _ =>
    Causal.bind (Causal.loop (rBody c sz burst) (rBody_consumes _ _ _) (fun _ => Causal.bind (Causal.readOnly _) fun _ => Causal.bind Causal.inp fun _ => Causal.ite
      (Causal.bind (Causal.ofExcept _) fun _ => Causal.bind (Causal.ofExcept _) fun _ => Causal.ite (Causal.pure _) (Causal.bind Causal.awaitEdge fun _ => Causal.pure _))
      (Causal.bind Causal.awaitEdge fun _ => Causal.pure _)) _) fun _ => Causal.bind Causal.awaitEdge fun _ => Causal.ofExcept _

theorem CausalW.onWrite {x : M AxIn (AddrOut × WOut) α} (hx : CausalW x) : CausalW (onWrite x) := by
  intro s
  obtain ⟨h1, h2⟩ := hx ⟨s.phase, s.out.1, s.prev, s.cur, s.rest⟩
  have hm : ∀ (e : End AxIn (AddrOut × WOut) α) (f : AddrOut × WOut → AxAll), (e.mapOut f).sim.rest = e.sim.rest ∧ (e.mapOut f).sim.out = f e.sim.out := fun e f => by cases e <;> exact ⟨rfl, rfl⟩
  refine ⟨?_, fun i => ?_⟩
  · unfold CocotbBus.onWrite
    simp only [List.length_map, hm]
    exact h1
  · have h2 := h2 i
    rw [show (⟨s.phase, s.out.1, s.prev, s.cur, s.rest⟩ : Sim AxIn (AddrOut × WOut)).snoc i = ⟨s.phase, s.out.1, s.prev, s.cur, (s.snoc i).rest⟩ from rfl] at h2
    have hgo : ∀ s : Sim AxIn AxAll, CocotbBus.onWrite x s = ((x ⟨s.phase, s.out.1, s.prev, s.cur, s.rest⟩).1.map (fun q => ((q.1, s.out.2), q.2)),
      (x ⟨s.phase, s.out.1, s.prev, s.cur, s.rest⟩).2.mapOut (fun o => (o, s.out.2))) := fun s => rfl
    rw [hgo, hgo]
    have hx' : x { phase := (s.snoc i).phase, out := (s.snoc i).out.1, prev := (s.snoc i).prev, cur := (s.snoc i).cur, rest := (s.snoc i).rest } =
      x ⟨s.phase, s.out.1, s.prev, s.cur, (s.snoc i).rest⟩ := rfl
    rw [hx']
    rcases h2 with h2 | ⟨g1, g2, q, t', e, g3, g4⟩
    · left
      rw [h2]
      generalize (x ⟨s.phase, s.out.1, s.prev, s.cur, s.rest⟩).2 = e
      cases e <;> rfl
    · right
      refine ⟨?_, by rw [(hm _ _).1]; exact g2, ((q.1, s.out.2), q.2), t'.map (fun q => ((q.1, s.out.2), q.2)), e.mapOut (fun o => (o, s.out.2)), ?_, ?_⟩
      · generalize (x ⟨s.phase, s.out.1, s.prev, s.cur, s.rest⟩).2 = e' at g1
        cases e' <;> exact g1
      · rw [g3]; simp only [List.map_append, List.map_cons]; rfl
      · rw [(hm _ _).2, g4]

theorem CausalW.onRead {x : M AxIn AddrOut α} (hx : CausalW x) : CausalW (onRead x) := by
  intro s
  obtain ⟨h1, h2⟩ := hx ⟨s.phase, s.out.2, s.prev, s.cur, s.rest⟩
  have hm : ∀ (e : End AxIn AddrOut α) (f : AddrOut → AxAll), (e.mapOut f).sim.rest = e.sim.rest ∧ (e.mapOut f).sim.out = f e.sim.out := fun e f => by cases e <;> exact ⟨rfl, rfl⟩
  refine ⟨?_, fun i => ?_⟩
  · unfold CocotbBus.onRead
    simp only [List.length_map, hm]
    exact h1
  · have h2 := h2 i
    rw [show (⟨s.phase, s.out.2, s.prev, s.cur, s.rest⟩ : Sim AxIn AddrOut).snoc i = ⟨s.phase, s.out.2, s.prev, s.cur, (s.snoc i).rest⟩ from rfl] at h2
    have hgo : ∀ s : Sim AxIn AxAll, CocotbBus.onRead x s = ((x ⟨s.phase, s.out.2, s.prev, s.cur, s.rest⟩).1.map (fun q => ((s.out.1, q.1), q.2)),
      (x ⟨s.phase, s.out.2, s.prev, s.cur, s.rest⟩).2.mapOut (fun o => (s.out.1, o))) := fun s => rfl
    rw [hgo, hgo]
    have hx' : x { phase := (s.snoc i).phase, out := (s.snoc i).out.2, prev := (s.snoc i).prev, cur := (s.snoc i).cur, rest := (s.snoc i).rest } =
      x ⟨s.phase, s.out.2, s.prev, s.cur, (s.snoc i).rest⟩ := rfl
    rw [hx']
    rcases h2 with h2 | ⟨g1, g2, q, t', e, g3, g4⟩
    · left
      rw [h2]
      generalize (x ⟨s.phase, s.out.2, s.prev, s.cur, s.rest⟩).2 = e
      cases e <;> rfl
    · right
      refine ⟨?_, by rw [(hm _ _).1]; exact g2, ((s.out.1, q.1), q.2), t'.map (fun q => ((s.out.1, q.1), q.2)), e.mapOut (fun o => (s.out.1, o)), ?_, ?_⟩
      · generalize (x ⟨s.phase, s.out.2, s.prev, s.cur, s.rest⟩).2 = e' at g1
        cases e' <;> exact g1
      · rw [g3]; simp only [List.map_append, List.map_cons]; rfl
      · rw [(hm _ _).2, g4]

theorem Causal.liteFirst (d : List LogicArray ⊕ List (LogicArray × Nat)) : Causal (liteFirst d) := by
  unfold CocotbBus.liteFirst
  split
  · exact Causal.pure _
  · exact Causal.raise _

theorem CausalW.axStep (c : AxCfg) (op : AxOp) : CausalW (axStep c op) := by
  cases op with
  | write => exact CausalW.bind (CausalW.onWrite (CausalW.axiWrite _ _ _ _ _ _ _ _ _)) fun _ => (Causal.pure _).weak
  | read => exact CausalW.bind (CausalW.onRead (Causal.axiRead _ _ _ _ _ _ _).weak) fun _ => (Causal.pure _).weak
  | liteWrite => exact CausalW.bind (CausalW.onWrite (CausalW.bind (CausalW.axiWrite _ _ _ _ _ _ _ _ _) fun _ => (Causal.ofExcept _).weak)) fun _ => (Causal.pure _).weak
  | liteRead => exact CausalW.bind (CausalW.onRead (Causal.bind (Causal.axiRead _ _ _ _ _ _ _) fun _ => Causal.liteFirst _).weak) fun _ => (Causal.pure _).weak
  | pause n => exact (Causal.bind (Causal.edges n) fun _ => Causal.pure _).weak

theorem CausalW.axUse (c : AxCfg) (ops : List AxOp) : CausalW (fun s => (axUse c ops s).2) := by
  induction ops with
  | nil => exact fun s => ⟨by simp [CocotbBus.axUse, End.sim], fun i => .inl rfl⟩
  | cons op ops ih =>
    have hall : ∀ s, (CocotbBus.axUse c (op :: ops) s).2 = match CocotbBus.axStep c op s with
      | (t, .ok _ s') => (t ++ (CocotbBus.axUse c ops s').2.1, (CocotbBus.axUse c ops s').2.2)
      | (t, .err (.axiProtocol _) s') => (t ++ (CocotbBus.axUse c ops s').2.1, (CocotbBus.axUse c ops s').2.2)
      | (t, .err e s') => (t, .err e s')
      | (t, .blocked s') => (t, .blocked s') := by
      intro s
      rw [CocotbBus.axUse]
      split <;> simp_all
    have cont : ∀ (t : List (AxAll × AxIn)) (s' : Sim AxIn AxAll) (n : Nat), t.length + s'.rest.length = n →
        (t ++ (CocotbBus.axUse c ops s').2.1).length + (CocotbBus.axUse c ops s').2.2.sim.rest.length = n ∧ ∀ i,
          (t ++ (CocotbBus.axUse c ops (s'.snoc i)).2.1, (CocotbBus.axUse c ops (s'.snoc i)).2.2) =
            (t ++ (CocotbBus.axUse c ops s').2.1, (CocotbBus.axUse c ops s').2.2.snoc i) ∨
          GoesOn (t ++ (CocotbBus.axUse c ops s').2.1, (CocotbBus.axUse c ops s').2.2) (t ++ (CocotbBus.axUse c ops (s'.snoc i)).2.1, (CocotbBus.axUse c ops (s'.snoc i)).2.2) := by
      intro t s' n hn
      obtain ⟨g1, g2⟩ := ih s'
      simp only at g1 g2
      refine ⟨by rw [List.length_append]; omega, fun i => ?_⟩
      rcases g2 i with g2 | ⟨g3, g4, q, t', e, g5, g6⟩
      · rw [g2]; exact .inl rfl
      · refine .inr ⟨g3, g4, q, t', e, ?_, g6⟩
        rw [g5, List.append_assoc]
    have more : ∀ (s : Sim AxIn AxAll) (t : List (AxAll × AxIn)) (q : AxAll × AxIn) (t'' : List (AxAll × AxIn)) (e : End AxIn AxAll (List LogicArray)),
        CocotbBus.axStep c op s = (t ++ q :: t'', e) → ∃ t3 e3, (CocotbBus.axUse c (op :: ops) s).2 = (t ++ q :: t3, e3) := by
      intro s t q t'' e he
      rw [hall, he]
      split
      · rename_i h; cases h; exact ⟨_, _, by rw [List.append_assoc, List.cons_append]⟩
      · rename_i h; cases h; exact ⟨_, _, by rw [List.append_assoc, List.cons_append]⟩
      · rename_i h; cases h; exact ⟨_, _, rfl⟩
      · rename_i h; cases h; exact ⟨_, _, rfl⟩
    intro s
    obtain ⟨h1, h2⟩ := CausalW.axStep c op s
    simp only
    cases hr : CocotbBus.axStep c op s with
    | mk t e =>
      rw [hr] at h1
      simp only [hr] at h2
      have hs := hall s
      rw [hr] at hs
      have stuck : ∀ (e' : End AxIn AxAll Unit), (CocotbBus.axUse c (op :: ops) s).2 = (t, e') → e'.sim = e.sim → (e.Open → e'.Open) →
          (∀ i, CocotbBus.axStep c op (s.snoc i) = (t, e.snoc i) → (CocotbBus.axUse c (op :: ops) (s.snoc i)).2 = (t, e'.snoc i)) →
          (CocotbBus.axUse c (op :: ops) s).2.1.length + (CocotbBus.axUse c (op :: ops) s).2.2.sim.rest.length = s.rest.length ∧
          ∀ i, (CocotbBus.axUse c (op :: ops) (s.snoc i)).2 = ((CocotbBus.axUse c (op :: ops) s).2.1, (CocotbBus.axUse c (op :: ops) s).2.2.snoc i) ∨
            GoesOn (CocotbBus.axUse c (op :: ops) s).2 (CocotbBus.axUse c (op :: ops) (s.snoc i)).2 := by
        intro e' hs hsim hop hst
        rw [hs]
        refine ⟨by rw [hsim]; exact h1, fun i => ?_⟩
        rcases h2 i with h2 | ⟨g3, g4, q, t', e'', g5, g6⟩
        · exact .inl (hst i h2)
        · obtain ⟨t3, e3, h7⟩ := more _ t q t' e'' g5
          exact .inr ⟨hop g3, by rw [hsim]; exact g4, q, t3, e3, h7, by rw [hsim]; exact g6⟩
      cases e with
      | ok d s' =>
        obtain ⟨g1, g2⟩ := cont t s' s.rest.length h1
        simp only at hs
        rw [hs]
        refine ⟨g1, fun i => ?_⟩
        rcases h2 i with h2 | h2
        · rw [hall, h2]; exact g2 i
        · exact h2.1.elim
      | err e s' =>
        by_cases he : ∃ n, e = .axiProtocol n
        · obtain ⟨n, rfl⟩ := he
          obtain ⟨g1, g2⟩ := cont t s' s.rest.length h1
          simp only at hs
          rw [hs]
          refine ⟨g1, fun i => ?_⟩
          rcases h2 i with h2 | h2
          · rw [hall, h2]; exact g2 i
          · exact (h2.1 n rfl).elim
        · have herr : ∀ (t : List (AxAll × AxIn)) (s' s : Sim AxIn AxAll), CocotbBus.axStep c op s = (t, .err e s') → (CocotbBus.axUse c (op :: ops) s).2 = (t, .err e s') := by
            intro t s' s h
            rw [hall, h]
            split
            · rename_i h; cases h
            · rename_i h; cases h; exact (he ⟨_, rfl⟩).elim
            · rename_i h; cases h; rfl
            · rename_i h; cases h
          exact stuck (.err e s') (herr t s' s hr) rfl (fun h => h) (fun i h => herr t _ _ h)
      | blocked s' =>
        exact stuck (.blocked s') hs rfl (fun h => h) (fun i h => by rw [hall, h]; rfl)

/-- one more cycle adds one cell to the simulation -/
theorem CausalW.wholeRun {x : M I O α} (hx : CausalW x) (hg : Good x) (s : Sim I O) (i : I) : ∃ o, wholeRun (x (s.snoc i)) = wholeRun (x s) ++ [(o, i)] := by
  obtain ⟨h1, h2⟩ := hx s
  rcases h2 i with h2 | ⟨h3, h4, q, t', e, h5, h6⟩
  · refine ⟨(x s).2.sim.out, ?_⟩
    rw [h2]
    have : ((x s).2.snoc i).sim = (x s).2.sim.snoc i := by cases (x s).2 <;> rfl
    simp only [Spec.wholeRun, this, Sim.snoc, List.map_append, List.map_cons, List.map_nil, List.append_assoc, List.cons_append]
  · have p1 := (hg s).1
    have p2 := (hg (s.snoc i)).1
    rw [h5] at p2
    rw [h4] at p1
    have hc : (s.snoc i).cur :: (s.snoc i).rest = (s.cur :: s.rest) ++ [i] := rfl
    rw [hc, p1] at p2
    simp only [List.map_append, List.map_cons, List.append_assoc, List.cons_append, List.nil_append, List.append_cancel_left_eq, List.cons.injEq] at p2
    obtain ⟨e1, e2⟩ := p2
    cases t' with
    | cons y z => have := congrArg List.length e2; simp at this
    | nil =>
      simp only [List.map_nil, List.nil_append, List.cons.injEq] at e2
      refine ⟨e.sim.out, ?_⟩
      have hq : q = ((x s).2.sim.out, (x s).2.sim.cur) := Prod.ext h6 e1.symm
      rw [h5]
      simp only [Spec.wholeRun, h4, ← e2.1, ← e2.2, hq, List.map_cons, List.map_nil, List.append_assoc, List.cons_append, List.nil_append]

/-- the inputs of a trace are those of a device whose state determines them -/
def DrivenBy (step : D → O × I → D) (pins : D → I) : D → List (O × I) → Prop
  | _, [] => True
  | d, q :: t => q.2 = pins d ∧ DrivenBy step pins (step d q) t

theorem drivenBy_append (step : D → O × I → D) (pins : D → I) (t u : List (O × I)) : ∀ d, DrivenBy step pins d (t ++ u) ↔ DrivenBy step pins d t ∧ DrivenBy step pins (t.foldl step d) u := by
  induction t with
  | nil => intro d; simp [DrivenBy]
  | cons q t ih => intro d; simp only [List.cons_append, DrivenBy, ih, List.foldl_cons, and_assoc]

/-- there is such a simulation of every length -/
theorem CausalW.closed {x : M I O α} (hx : CausalW x) (hg : Good x) (step : D → O × I → D) (pins : D → I) (d : D) (ph : Phase) (o : O) (N : Nat) :
    ∃ s : Sim I O, s.phase = ph ∧ s.out = o ∧ s.rest.length = N ∧ DrivenBy step pins d (Spec.wholeRun (x s)) := by
  induction N with
  | zero =>
    refine ⟨⟨ph, o, pins d, pins d, []⟩, rfl, rfl, rfl, ?_⟩
    have p := (hg ⟨ph, o, pins d, pins d, []⟩).1
    have hm : (Spec.wholeRun (x ⟨ph, o, pins d, pins d, []⟩)).map Prod.snd = [pins d] := by
      rw [Spec.wholeRun, List.map_append, List.map_map, show (Prod.snd ∘ fun i => ((x ⟨ph, o, pins d, pins d, []⟩).2.sim.out, i)) = (fun i : I => i) from rfl, List.map_id', ← p]
    generalize Spec.wholeRun (x ⟨ph, o, pins d, pins d, []⟩) = w at hm
    cases w with
    | nil => cases hm
    | cons q t =>
      simp only [List.map_cons, List.cons.injEq, List.map_eq_nil_iff] at hm
      obtain ⟨h1, rfl⟩ := hm
      exact ⟨h1, trivial⟩
  | succ N ih =>
    obtain ⟨s, h1, h2, h3, h4⟩ := ih
    obtain ⟨o', ho⟩ := CausalW.wholeRun hx hg s (pins ((Spec.wholeRun (x s)).foldl step d))
    refine ⟨s.snoc (pins ((Spec.wholeRun (x s)).foldl step d)), h1, h2, by simp [Sim.snoc, h3], ?_⟩
    rw [ho, drivenBy_append]
    exact ⟨h4, rfl, trivial⟩

end CocotbBus
