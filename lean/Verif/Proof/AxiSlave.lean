import Verif.Model.AxiSlave
import Verif.Proof.AvalonMM

namespace CocotbBus
open Coro

theorem bind_write_ro {I O β : Type} (f : O → O) (k : Unit → M I O β) (s : Sim I O) (h : s.phase = .ro) :
    (write f >>= k) s = ([], .err .readOnlyWrite s) := by
  rw [bind_run, write_ro f s h]; rfl

theorem asAwBody_hit (c : AsCfg) (s : Sim AsIn AsWOut) (hp : s.phase ≠ .ro) (h : s.cur.awvalid = .one) :
    asAwBody c () s = ([], .err .readOnlyWrite { s with phase := .ro, out := { s.out with wready := .zero } }) := by
  unfold asAwBody
  rw [bind_write _ _ _ hp, bind_readOnly _ _ _ (by exact hp), bind_inp_ro _ _ rfl]
  simp only []
  rw [if_pos h, bind_write_ro _ _ _ rfl]

theorem asAwBody_miss (c : AsCfg) (s : Sim AsIn AsWOut) (hp : s.phase ≠ .ro) (h : s.cur.awvalid ≠ .one) :
    (s.rest = [] ∧ asAwBody c () s = ([], .blocked { s with phase := .ro, out := { s.out with wready := .zero } })) ∨
    ∃ i r, s.rest = i :: r ∧ asAwBody c () s = ([({ s.out with wready := .zero }, s.cur)],
      .ok (.inl ()) { phase := .edge, out := { s.out with wready := .zero }, prev := s.cur, cur := i, rest := r }) := by
  unfold asAwBody
  rw [bind_write _ _ _ hp, bind_readOnly _ _ _ (by exact hp), bind_inp_ro _ _ rfl]
  simp only []
  rw [if_neg h]
  cases hr : s.rest with
  | nil => left; exact ⟨rfl, bind_awaitEdge_nil _ _ rfl⟩
  | cons i r => right; exact ⟨i, r, rfl, by rw [bind_awaitEdge_cons _ _ i r rfl]; rfl⟩

theorem asAwBody_ro (c : AsCfg) (s : Sim AsIn AsWOut) (hp : s.phase = .ro) : asAwBody c () s = ([], .err .readOnlyWrite s) := by
  unfold asAwBody
  rw [bind_write_ro _ _ _ hp]

theorem asAwBody_consumes (c : AsCfg) : Consumes (asAwBody c) := by
  intro b s t b' s' h
  by_cases hp : s.phase = .ro
  · rw [asAwBody_ro c s hp] at h; cases h
  · by_cases hv : s.cur.awvalid = .one
    · rw [asAwBody_hit c s hp hv] at h; cases h
    · rcases asAwBody_miss c s hp hv with ⟨_, h1⟩ | ⟨i, r, h0, h1⟩
      · rw [h1] at h; cases h
      · rw [h1] at h; cases h; rw [h0]; simp

/-- the coroutine waits for a write address and raises when there is one -/
theorem asAw_run (c : AsCfg) (rest : List AsIn) : ∀ s : Sim AsIn AsWOut, s.rest = rest → s.phase ≠ .ro →
    (∃ pre x post, s.cur :: s.rest = pre ++ x :: post ∧ (∀ y ∈ pre, y.awvalid ≠ .one) ∧ x.awvalid = .one ∧ ∃ t s',
      loop (asAwBody c) () s = (t, .err .readOnlyWrite s') ∧ t = pre.map (fun y => ({ s.out with wready := .zero }, y)) ∧ s'.out = { s.out with wready := .zero }) ∨
    ((∀ y ∈ s.cur :: s.rest, y.awvalid ≠ .one) ∧ ∃ t s', loop (asAwBody c) () s = (t, .blocked s') ∧ (∀ r ∈ t, r.1 = { s.out with wready := .zero }) ∧
      s'.out = { s.out with wready := .zero }) := by
  induction rest with
  | nil =>
    intro s hr hp
    rw [loop_unfold _ (asAwBody_consumes c), bind_run]
    by_cases hv : s.cur.awvalid = .one
    · rw [asAwBody_hit c s hp hv]
      exact .inl ⟨[], s.cur, s.rest, rfl, (by intro y h; cases h), hv, [], _, rfl, rfl, rfl⟩
    · rcases asAwBody_miss c s hp hv with ⟨_, h1⟩ | ⟨i, r, h0, h1⟩
      · rw [h1]
        exact .inr ⟨by rw [hr]; intro y hy; rw [List.mem_singleton] at hy; rw [hy]; exact hv, [], _, rfl, (by intro r h; cases h), rfl⟩
      · rw [hr] at h0; cases h0
  | cons i rest ih =>
    intro s hr hp
    rw [loop_unfold _ (asAwBody_consumes c), bind_run]
    by_cases hv : s.cur.awvalid = .one
    · rw [asAwBody_hit c s hp hv]
      exact .inl ⟨[], s.cur, s.rest, rfl, (by intro y h; cases h), hv, [], _, rfl, rfl, rfl⟩
    · rcases asAwBody_miss c s hp hv with ⟨h0, h1⟩ | ⟨i', r, h0, h1⟩
      · rw [hr] at h0; cases h0
      · rw [hr] at h0; cases h0
        rw [h1, andThen_ok, hr]
        simp only []
        rcases ih ⟨.edge, { s.out with wready := .zero }, s.cur, i, rest⟩ rfl (by simp) with ⟨pre, x, post, e1, e2, e3, t, s', e4, e5, e6⟩ | ⟨e1, t, s', e2, e3, e4⟩
        · rw [e4]
          refine .inl ⟨s.cur :: pre, x, post, by rw [List.cons_append, ← e1], ?_, e3, _, s', rfl, by rw [e5]; rfl, e6⟩
          intro y hy
          rcases List.mem_cons.1 hy with rfl | hy
          · exact hv
          · exact e2 y hy
        · rw [e2]
          refine .inr ⟨?_, _, s', rfl, ?_, e4⟩
          · intro y hy
            rcases List.mem_cons.1 hy with rfl | hy
            · exact hv
            · exact e1 y hy
          · intro r hr'
            rcases List.mem_cons.1 hr' with rfl | hr'
            · rfl
            · exact e3 r hr'

theorem asWrite_eq (c : AsCfg) (s : Sim AsIn AsWOut) (t : List (AsWOut × AsIn)) :
    (∀ e s', loop (asAwBody c) () s = (t, .err e s') → asWrite c s = (t, .err e s')) ∧
    (∀ s', loop (asAwBody c) () s = (t, .blocked s') → asWrite c s = (t, .blocked s')) := by
  constructor
  · intro e s' h
    unfold asWrite
    rw [loop, iter, bind_run, bind_run]
    unfold asWriteOne
    rw [bind_run, h]; rfl
  · intro s' h
    unfold asWrite
    rw [loop, iter, bind_run, bind_run]
    unfold asWriteOne
    rw [bind_run, h]; rfl

/-! ### Reading -/

theorem keeps_ro_write {I O α : Type} {P : O → Prop} (b : Bool) (cond : I → Prop) [∀ i, Decidable (cond i)] (g : I → M I O Unit) (k : Unit → M I O α)
    (hg : ∀ i s, s.phase = .ro → P s.out → (g i s).1 = [] ∧ P (g i s).2.sim.out ∧ ∀ a s', (g i s).2 = .ok a s' → False) (hk : ∀ a, Keeps P (k a)) :
    Keeps P (readOnly b >>= fun _ => inp >>= fun i => (if cond i then g i else pure ()) >>= k) := by
  intro s hs
  by_cases hro : b = true ∧ s.phase = .ro
  · rw [bind_run]
    have : (readOnly b : M I O Unit) s = ([], .err .readOnlyAwait s) := by
      unfold readOnly; rw [if_pos hro]
    rw [this]
    exact ⟨(by intro r h; cases h), hs⟩
  · have : (readOnly b : M I O Unit) s = ([], .ok () { s with phase := .ro }) := by
      unfold readOnly; rw [if_neg hro]
    rw [bind_silent _ _ _ _ _ this, bind_inp_ro _ _ rfl]
    by_cases hc : cond s.cur
    · simp only [hc, if_true]
      obtain ⟨h1, h2, h3⟩ := hg s.cur { s with phase := .ro } rfl hs
      rw [bind_run]
      rcases hgr : g s.cur { s with phase := .ro } with ⟨t, e⟩
      rw [hgr] at h1 h2 h3
      simp only at h1
      subst h1
      cases e with
      | ok a s' => exact (h3 a s' rfl).elim
      | err e s' => exact ⟨(by intro r h; cases h), h2⟩
      | blocked s' => exact ⟨(by intro r h; cases h), h2⟩
    · simp only [hc, if_false]
      rw [bind_pure_run]
      exact hk () { s with phase := .ro } hs

theorem asRData_ro (c : AsCfg) (addr length bytes count : Nat) (s : Sim AsIn AsROut) (hp : s.phase = .ro) :
    ∃ e, asRData c addr length bytes count s = ([], .err e s) ∧ (e = .readOnlyWrite ∨ createBinaryBytes
      (pySlice s.out.mem (addr + (length - count) * bytes) (addr + ((length - count) + 1) * bytes)) (bytes * 8) c.bigEndian = .error e) := by
  unfold asRData
  rw [bind_getOut]
  cases h : createBinaryBytes (pySlice s.out.mem (addr + (length - count) * bytes) (addr + ((length - count) + 1) * bytes)) (bytes * 8) c.bigEndian with
  | error e => exact ⟨e, by rw [bind_ofExcept_error], .inr rfl⟩
  | ok v => exact ⟨_, by rw [bind_ofExcept_ok, bind_write_ro _ _ _ hp], .inl rfl⟩

/-- RDATA keeps its value and RLAST stays low -/
theorem keeps_asRead (c : AsCfg) (d : LogicArray) (m : Bytes) : Keeps (fun o : AsROut => o.rdata = d ∧ o.rlast = .zero ∧ o.mem = m) (asRead c) := by
  have hbody : ∀ a l b n, Keeps (fun o : AsROut => o.rdata = d ∧ o.rlast = .zero ∧ o.mem = m) (asRBody c a l b n) := by
    intro a l b n
    refine Keeps.bind (Keeps.write _ (fun o h => h)) (fun _ => ?_)
    refine keeps_ro_write c.strict (fun i : AsIn => i.rready = .one) (fun _ => asRData c a l b n) (fun _ => asRNext n) ?_ ?_
    · intro i s hp hs
      obtain ⟨e, h, _⟩ := asRData_ro c a l b n s hp
      rw [h]
      exact ⟨rfl, hs, fun a s' h => by cases h⟩
    · intro _
      exact Keeps.bind Keeps.awaitEdge (fun _ => Keeps.bind (Keeps.write _ (fun o h => ⟨h.1, rfl, h.2.2⟩)) (fun _ => Keeps.ite (Keeps.pure _) (Keeps.pure _)))
  refine Keeps.loop _ (fun _ => Keeps.bind (Keeps.bind (Keeps.loop _ (fun _ => ?_) ()) (fun _ => Keeps.bind (Keeps.readOnly _) (fun _ =>
    Keeps.bind Keeps.inp (fun _ => Keeps.bind (Keeps.ofExcept _) (fun f => Keeps.bind Keeps.awaitEdge (fun _ => Keeps.loop _ (hbody _ _ _) _)))))) (fun _ => Keeps.pure _)) ()
  exact Keeps.bind (Keeps.readOnly _) (fun _ => Keeps.bind Keeps.inp (fun i => Keeps.ite (Keeps.pure _) (Keeps.bind Keeps.awaitEdge (fun _ => Keeps.pure _))))

theorem asArBody_hit (c : AsCfg) (s : Sim AsIn AsROut) (hp : s.phase ≠ .ro) (h : s.cur.arvalid = .one) :
    asArBody c () s = ([], .ok (.inr ()) { s with phase := .ro }) := by
  unfold asArBody
  rw [bind_readOnly _ _ _ hp, bind_inp_ro _ _ rfl]
  simp only []
  rw [if_pos h]; rfl

theorem asArBody_miss (c : AsCfg) (s : Sim AsIn AsROut) (hp : s.phase ≠ .ro) (h : s.cur.arvalid ≠ .one) :
    (s.rest = [] ∧ asArBody c () s = ([], .blocked { s with phase := .ro })) ∨
    ∃ i r, s.rest = i :: r ∧ asArBody c () s = ([(s.out, s.cur)], .ok (.inl ()) { phase := .edge, out := s.out, prev := s.cur, cur := i, rest := r }) := by
  unfold asArBody
  rw [bind_readOnly _ _ _ hp, bind_inp_ro _ _ rfl]
  simp only []
  rw [if_neg h]
  cases hr : s.rest with
  | nil => left; exact ⟨rfl, bind_awaitEdge_nil _ _ rfl⟩
  | cons i r => right; exact ⟨i, r, rfl, by rw [bind_awaitEdge_cons _ _ i r rfl]; rfl⟩

theorem asArBody_consumes (c : AsCfg) : Consumes (asArBody c) := by
  intro b s t b' s' h
  unfold asArBody at h
  by_cases hro : c.strict = true ∧ s.phase = .ro
  · have : (readOnly c.strict : M AsIn AsROut Unit) s = ([], .err .readOnlyAwait s) := by
      unfold readOnly; rw [if_pos hro]
    rw [bind_run, this] at h; cases h
  · have : (readOnly c.strict : M AsIn AsROut Unit) s = ([], .ok () { s with phase := .ro }) := by
      unfold readOnly; rw [if_neg hro]
    rw [bind_silent _ _ _ _ _ this, bind_inp_ro _ _ rfl] at h
    by_cases hv : s.cur.arvalid = .one
    · simp only [hv, if_true] at h; cases h
    · simp only [hv, if_false] at h
      cases hr : s.rest with
      | nil => rw [bind_awaitEdge_nil _ _ (by exact hr)] at h; cases h
      | cons i r => rw [bind_awaitEdge_cons _ _ i r (by exact hr)] at h; cases h; simp

/-- the coroutine waits for a read address -/
theorem asAr_run (c : AsCfg) (pre : List AsIn) : ∀ (s : Sim AsIn AsROut) (x : AsIn) (post : List AsIn), s.phase ≠ .ro →
    s.cur :: s.rest = pre ++ x :: post → (∀ y ∈ pre, y.arvalid ≠ .one) → x.arvalid = .one →
    ∃ s', loop (asArBody c) () s = (pre.map (fun y => (s.out, y)), .ok () s') ∧ s'.phase = .ro ∧ s'.out = s.out ∧ s'.cur = x ∧ s'.rest = post := by
  induction pre with
  | nil =>
    intro s x post hp he _ hx
    rw [List.nil_append] at he
    injection he with e1 e2
    rw [loop_unfold _ (asArBody_consumes c), bind_run, asArBody_hit c s hp (by rw [e1]; exact hx)]
    exact ⟨_, rfl, rfl, rfl, e1, e2⟩
  | cons y pre ih =>
    intro s x post hp he hpre hx
    rw [List.cons_append] at he
    injection he with e1 e2
    have hy := hpre y (by simp)
    rw [← e1] at hy
    rw [loop_unfold _ (asArBody_consumes c), bind_run]
    rcases asArBody_miss c s hp hy with ⟨h0, h1⟩ | ⟨i, r, h0, h1⟩
    · rw [h0] at e2
      exact absurd e2 (by cases pre <;> simp)
    · rw [h1, andThen_ok]
      simp only []
      obtain ⟨s', e3, e4, e5, e6, e7⟩ := ih ⟨.edge, s.out, s.cur, i, r⟩ x post (by simp) (by simpa [← h0] using e2) (fun z hz => hpre z (by simp [hz])) hx
      rw [e3]
      exact ⟨s', by rw [List.map_cons, ← e1]; rfl, e4, e5, e6, e7⟩

theorem asAr_idle (c : AsCfg) (rest : List AsIn) : ∀ s : Sim AsIn AsROut, s.rest = rest → s.phase ≠ .ro → (∀ y ∈ s.cur :: s.rest, y.arvalid ≠ .one) →
    ∃ t s', loop (asArBody c) () s = (t, .blocked s') ∧ (∀ r ∈ t, r.1 = s.out) ∧ s'.out = s.out := by
  induction rest with
  | nil =>
    intro s hr hp h
    rw [loop_unfold _ (asArBody_consumes c), bind_run]
    rcases asArBody_miss c s hp (h _ (by simp)) with ⟨h0, h1⟩ | ⟨i, r, h0, h1⟩
    · rw [h1]; exact ⟨[], _, rfl, (by intro r h; cases h), rfl⟩
    · rw [hr] at h0; cases h0
  | cons i rest ih =>
    intro s hr hp h
    rw [loop_unfold _ (asArBody_consumes c), bind_run]
    rcases asArBody_miss c s hp (h _ (by simp)) with ⟨h0, h1⟩ | ⟨i', r, h0, h1⟩
    · rw [hr] at h0; cases h0
    · rw [h1, andThen_ok]
      rw [hr] at h0; cases h0
      simp only []
      obtain ⟨t, s', e1, e2, e3⟩ := ih ⟨.edge, s.out, s.cur, i, rest⟩ rfl (by simp) (fun y hy => h y (by rw [hr]; exact List.mem_cons_of_mem _ hy))
      rw [e1]
      exact ⟨_, s', rfl, (by
        intro r hr'
        rcases List.mem_cons.1 hr' with rfl | hr'
        · rfl
        · exact e2 r hr'), e3⟩

theorem asRead_of_err (c : AsCfg) (s s' : Sim AsIn AsROut) (t : List (AsROut × AsIn)) (e : PyErr) (h : asReadOne c s = (t, .err e s')) : asRead c s = (t, .err e s') := by
  unfold asRead
  rw [loop, iter, bind_run, bind_run, h]; rfl

theorem asRead_of_blocked (c : AsCfg) (s s' : Sim AsIn AsROut) (t : List (AsROut × AsIn)) (h : asReadOne c s = (t, .blocked s')) : asRead c s = (t, .blocked s') := by
  unfold asRead
  rw [loop, iter, bind_run, bind_run, h]; rfl

theorem joinBytes_length8 (b : Bytes) : (joinBytes b).length = 8 * b.length := by
  induction b with
  | nil => rfl
  | cons x b ih =>
    unfold joinBytes at ih ⊢
    rw [List.flatMap_cons, List.length_append, byteBits_length, ih, List.length_cons]; omega

theorem asBytes_ok (m : Bytes) (a n : Nat) (hn : 0 < n) (be : Bool) : ∃ v, createBinaryBytes (pySlice m a (a + n)) (n * 8) be = .ok v := by
  unfold createBinaryBytes
  rw [if_neg (by omega)]
  have hl : (pySlice m a (a + n)).length ≤ n := by
    unfold pySlice; rw [List.length_drop, List.length_take]; omega
  simp only []
  have : ∀ b : Bytes, b.length ≤ n → (joinBytes b).length + (n * 8 - (joinBytes b).length) = n * 8 := by
    intro b hb
    rw [joinBytes_length8]; omega
  cases be
  · simp only [Bool.false_eq_true, if_false]
    rw [if_pos (by rw [List.length_append, List.length_replicate]; have := this (pySlice m a (a + n)).reverse (by simpa using hl); omega)]
    exact ⟨_, rfl⟩
  · simp only [if_true]
    rw [if_pos (by rw [List.length_append, List.length_replicate]; exact this _ hl)]
    exact ⟨_, rfl⟩

end CocotbBus
