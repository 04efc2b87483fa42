import Verif.Proof.AxiReadProps
import Verif.Proof.Cancel

/-! # The address of a read that is given up -/

namespace CocotbBus
open Spec Coro

/-- what the slave has taken of a read, and what is still on offer -/
def AskedOnce (c : AxCfg) (p : AddrReq) (t : List (AddrOut × AxIn)) (o : AddrOut) : Prop :=
  ((arStream c).taken t = [] ∧ ((arStream c).valid o = true → (arStream c).payload o = p)) ∨ ((arStream c).taken t = [p] ∧ (arStream c).valid o = false)

theorem rTail_keeps {P : AddrOut → Prop} (c : AxCfg) (a len size : Nat) (burst : AxiBurst) (rr : Bool) :
    Keeps P (do
      let st ← loop (rBody c size burst) ⟨[], [], a % c.dataBytes / size * size⟩
      awaitEdge
      ofExcept (axiFinish a len size burst rr st)) :=
  Keeps.bind (Keeps.loop _ (fun _ => Keeps.bind (Keeps.readOnly _) fun _ => Keeps.bind Keeps.inp fun _ => Keeps.ite (Keeps.bind (Keeps.ofExcept _) fun _ =>
    Keeps.bind (Keeps.ofExcept _) fun _ => Keeps.ite (Keeps.pure _) (Keeps.bind Keeps.awaitEdge fun _ => Keeps.pure _))
    (Keeps.bind Keeps.awaitEdge fun _ => Keeps.pure _)) _) fun _ => Keeps.bind Keeps.awaitEdge fun _ => Keeps.ofExcept _

theorem taken_idle {I O P : Type} (V : Stream I O P) (t : List (O × I)) (h : ∀ q ∈ t, V.valid q.1 = false) : V.taken t = [] := by
  unfold Stream.taken
  rw [List.filter_eq_nil_iff.2, List.map_nil]
  intro q hq
  unfold Stream.xfer
  rw [h q hq]
  simp

theorem taken_held {I O P : Type} (V : Stream I O P) (t : List (O × I)) (h : ∀ q ∈ t, V.ready q.2 = false) : V.taken t = [] := by
  unfold Stream.taken
  rw [List.filter_eq_nil_iff.2, List.map_nil]
  intro q hq
  unfold Stream.xfer
  rw [h q hq]
  simp

theorem axiReadRun_asked (c : AxCfg) (a len size : Nat) (burst : AxiBurst) (rr sync : Bool) (hf : AddrFits c a len size) (hsz : 0 < size)
    (s : Sim AxIn AddrOut) (hs : ReadReady sync s) :
    AskedOnce c (addrReq c a len size burst) (axiReadRun c a len size burst rr sync s).1 (axiReadRun c a len size burst rr sync s).2.sim.out := by
  unfold axiReadRun
  rw [bind_run]
  obtain ⟨idle, held, h1, h2, h3⟩ := sendReadAddress_offers c a len size burst sync hf hsz s hs.1 hs.2
  have t1 := taken_idle (arStream c) idle h1
  have t2 := taken_held (arStream c) held (fun q hq => (h2 q hq).2.2)
  rcases h3 with ⟨s', h3, h4, -⟩ | ⟨-, ⟨s', h3, h4, h5⟩ | ⟨q, u, s', h3, h4, h5, h6, h7⟩⟩
  · rw [h3]
    exact .inl ⟨t1, fun h => by rw [show (arStream c).valid s'.out = true from h] at h4; cases h4⟩
  · rw [h3]
    exact .inl ⟨by rw [show (Res.andThen _ _ : Res AxIn AddrOut _).1 = idle ++ held from rfl, taken_append, t1, t2]; rfl, fun _ => h5⟩
  · rw [h3, andThen_ok]
    have hk := rTail_keeps (P := fun o => o.valid = .zero) c a len size burst rr s' h7.2
    generalize (do
      let st ← loop (rBody c size burst) ⟨[], [], a % c.dataBytes / size * size⟩
      awaitEdge
      ofExcept (axiFinish a len size burst rr st) : M AxIn AddrOut _) s' = r at hk ⊢
    have hx : (arStream c).xfer q = true := by
      unfold Stream.xfer
      rw [h4, h6]
      rfl
    have t3 : (arStream c).taken [q] = [addrReq c a len size burst] := by simp [Stream.taken, hx, h5]
    have t4 : (arStream c).taken r.1 = [] := taken_idle (arStream c) _ (fun q hq => by show (q.1.valid == .one) = false; rw [hk.1 q hq]; rfl)
    refine .inr ⟨?_, ?_⟩
    · show (arStream c).taken (idle ++ held ++ [q] ++ r.1) = _
      rw [taken_append, taken_append, taken_append, t1, t2, t3, t4]
      rfl
    · show (_ == Logic.one) = false
      rw [hk.2]
      rfl

/-- a coroutine given up has the records of its run on the cycles until then, and the signals stay -/
theorem cancel_run {I O α : Type} (n : Nat) (x : M I O α) (hg : Good x) (s : Sim I O) :
    ∃ r, (cancelAfter n x s).1 = (x { s with rest := r }).1 ∧ (cancelAfter n x s).2.sim.out = (x { s with rest := r }).2.sim.out := by
  by_cases hn : n ≤ s.rest.length
  · refine ⟨s.rest.take n, ?_⟩
    rcases h : x { s with rest := s.rest.take n } with ⟨t, b | e | s'⟩
    · next s' => rw [cancel_ok n x s hn t b s' h]; exact ⟨rfl, rfl⟩
    · next s' =>
      unfold cancelAfter
      rw [if_pos hn, h]
      exact ⟨rfl, rfl⟩
    · have hr := (hg { s with rest := s.rest.take n }).2 s' (by rw [h])
      rw [cancel_blocked n x s hn t s' h hr]
      exact ⟨rfl, rfl⟩
  · refine ⟨s.rest, ?_⟩
    unfold cancelAfter
    rw [if_neg hn, bind_run]
    show (Res.andThen (x s) _).1 = (x s).1 ∧ _ = (x s).2.sim.out
    rcases h : x s with ⟨t, b | e | s'⟩
    · rw [andThen_ok]
      exact ⟨List.append_nil _, rfl⟩
    · exact ⟨rfl, rfl⟩
    · exact ⟨rfl, rfl⟩

theorem read_given_up (c : AxCfg) (hc : Standard c) (a : Nat) (ha : a < 2 ^ c.addrW) (length : Int) (size : Option Int) (burst : AxiBurst)
    (rr sync : Bool) (sz : Nat) (hl : Legal c a length size burst sz) (s : Sim AxIn AddrOut) (hs : ReadReady sync s) (n : Nat) :
    AskedOnce c (addrReq c a length.toNat sz burst) (cancelAfter n (axiRead c a length size burst rr sync) s).1
      (cancelAfter n (axiRead c a length size burst rr sync) s).2.sim.out := by
  rw [axiRead_legal c hc a length size burst rr sync sz hl]
  obtain ⟨h1, h2, -, -⟩ := Legal.facts hl hc ha
  obtain ⟨r, e1, e2⟩ := cancel_run n (axiReadRun c a length.toNat sz burst rr sync) (axiReadRun_good c a length.toNat sz burst rr sync) s
  rw [e1, e2]
  exact axiReadRun_asked c a length.toNat sz burst rr sync h1 h2 { s with rest := r } hs

/-- the clock goes on -/
theorem asked_edges (c : AxCfg) (p : AddrReq) (x : M AxIn AddrOut Unit) (s : Sim AxIn AddrOut) (m : Nat) (h : AskedOnce c p (x s).1 (x s).2.sim.out) :
    ∃ j, (arStream c).taken ((x >>= fun _ => edges m) s).1 = List.replicate j p ∧ ((arStream c).valid (x s).2.sim.out = false → j ≤ 1) := by
  have hone : ∃ j, (arStream c).taken (x s).1 = List.replicate j p ∧ j ≤ 1 ∧ ((arStream c).valid (x s).2.sim.out = true → j = 0 ∧ (arStream c).payload (x s).2.sim.out = p) := by
    rcases h with ⟨h1, h2⟩ | ⟨h1, h2⟩
    · exact ⟨0, h1, by omega, fun h => ⟨rfl, h2 h⟩⟩
    · exact ⟨1, h1, by omega, fun h => by rw [h2] at h; cases h⟩
  obtain ⟨j, h1, h2, h3⟩ := hone
  rw [bind_run]
  rcases hx : x s with ⟨t, b | e | s'⟩
  · next s' =>
    rw [hx] at h1 h3
    rw [andThen_ok]
    obtain ⟨i, i1, i2⟩ := taken_constant (arStream c) s'.out (edges m s' : Res AxIn AddrOut Unit).1 (edges_records m s').1
    rw [show (t ++ _, _).1 = t ++ (edges m s' : Res AxIn AddrOut Unit).1 from rfl, taken_append, i1, show (arStream c).taken t = _ from h1]
    rcases Bool.eq_false_or_eq_true ((arStream c).valid s'.out) with hv | hv
    · obtain ⟨rfl, hp⟩ := h3 hv
      refine ⟨i, ?_, ?_⟩
      · rw [show (arStream c).payload s'.out = p from hp]
        rfl
      · intro h
        rw [show (arStream c).valid s'.out = false from h] at hv
        cases hv
    · rw [i2 hv]
      exact ⟨j, by simp, fun _ => h2⟩
  · rw [hx] at h1
    exact ⟨j, h1, fun _ => h2⟩
  · rw [hx] at h1
    exact ⟨j, h1, fun _ => h2⟩

/-- the clock goes on with the address on offer: it is taken at every edge with ready -/
theorem asked_count (c : AxCfg) (p : AddrReq) (x : M AxIn AddrOut Unit) (s : Sim AxIn AddrOut) (m : Nat) (h : AskedOnce c p (x s).1 (x s).2.sim.out)
    (hv : (arStream c).valid (x s).2.sim.out = true) :
    (arStream c).taken ((x >>= fun _ => edges m) s).1 =
      List.replicate ((((x >>= fun _ => edges m) s).1.drop (x s).1.length).countP (fun q => (arStream c).ready q.2)) p := by
  rcases h with ⟨h1, h2⟩ | ⟨-, h2⟩
  · have hp := h2 hv
    rw [bind_run]
    rcases hx : x s with ⟨t, b | e | s'⟩
    · next s' =>
      rw [hx] at h1 hp hv
      have hr := (edges_records m s' : _ ∧ _).1
      rw [andThen_ok]
      generalize (edges m s' : Res AxIn AddrOut Unit) = r at hr
      show (arStream c).taken (t ++ r.1) = List.replicate (((t ++ r.1).drop t.length).countP _) p
      rw [taken_append, show (arStream c).taken t = _ from h1, List.drop_left, List.nil_append]
      generalize r.1 = l at hr
      induction l with
      | nil => rfl
      | cons q l ih =>
        have hq := hr q (by simp)
        have ih := ih (fun q' hq' => hr q' (by simp [hq']))
        have hv' : (arStream c).valid q.1 = true := by rw [hq]; exact hv
        have hp' : (arStream c).payload q.1 = p := by rw [hq]; exact hp
        rw [List.countP_cons, show q :: l = [q] ++ l from rfl, taken_append, ih]
        rcases Bool.eq_false_or_eq_true ((arStream c).ready q.2) with hb | hb
        · have : (arStream c).taken [q] = [p] := by simp [Stream.taken, Stream.xfer, hv', hb, hp']
          rw [this, hb, if_pos rfl, List.replicate_succ]
          rfl
        · have : (arStream c).taken [q] = [] := by simp [Stream.taken, Stream.xfer, hb]
          rw [this, hb]
          rfl
    · rw [hx] at h1
      show (arStream c).taken t = List.replicate ((t.drop t.length).countP _) p
      rw [List.drop_length]; exact h1
    · rw [hx] at h1
      show (arStream c).taken t = List.replicate ((t.drop t.length).countP _) p
      rw [List.drop_length]; exact h1
  · rw [h2] at hv; cases hv

end CocotbBus
