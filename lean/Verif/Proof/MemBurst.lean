import Verif.Proof.AvalonMemory

/-! # Bursts of `AvalonMemory` -/

namespace CocotbBus
open Spec Coro

theorem shown_edge_nil {β : Type} (k : Unit → M MemIn MemOut β) (s : Sim MemIn MemOut) (h : s.rest = []) :
    memShown ((awaitEdge >>= k) s) = [memPins s.out] := by
  rw [bind_awaitEdge_nil _ _ h]; rfl

theorem shown_edge_cons {β : Type} (k : Unit → M MemIn MemOut β) (s : Sim MemIn MemOut) (i : MemIn) (r : List MemIn) (h : s.rest = i :: r) :
    memShown ((awaitEdge >>= k) s) = memPins s.out :: memShown (k () ⟨.edge, s.out, s.cur, i, r⟩) := by
  rw [bind_awaitEdge_cons _ _ i r h]; rfl

/-- the pins go through `p :: exp`, possibly not to the end -/
structure Shows {α : Type} (p : LogicArray × Logic × Logic) (r : Res MemIn MemOut α) (exp : List (LogicArray × Logic × Logic)) (Q : Sim MemIn MemOut → Prop) : Prop where
  pre : memShown r <+: p :: exp
  ok : ∀ a s', r.2 = .ok a s' → memShown r = p :: exp ∧ Q s'
  err : ∀ e s', r.2 ≠ .err e s'
  short : ∀ s', r.2 = .blocked s' → (memShown r).length ≤ exp.length

theorem shows_edge {β : Type} {k : Unit → M MemIn MemOut β} {s : Sim MemIn MemOut} {p : LogicArray × Logic × Logic} {exp : List (LogicArray × Logic × Logic)}
    {Q : Sim MemIn MemOut → Prop}
    {p0 : LogicArray × Logic × Logic} (hp0 : memPins s.out = p0)
    (h : ∀ i r, s.rest = i :: r → Shows p (k () ⟨.edge, s.out, s.cur, i, r⟩) exp Q) :
    Shows p0 ((awaitEdge >>= k) s) (p :: exp) Q := by
  subst hp0
  cases hr : s.rest with
  | nil =>
    refine ⟨?_, ?_, ?_, ?_⟩
    · rw [shown_edge_nil _ _ hr]; exact ⟨p :: exp, rfl⟩
    · intro a s' h; rw [bind_awaitEdge_nil _ _ hr] at h; cases h
    · intro a s' h; rw [bind_awaitEdge_nil _ _ hr] at h; cases h
    · intro s' h; rw [shown_edge_nil _ _ hr]; simp
  | cons i r =>
    obtain ⟨h1, h2, h3, h4⟩ := h i r hr
    refine ⟨?_, ?_, ?_, ?_⟩
    · rw [shown_edge_cons _ _ i r hr]
      exact (List.prefix_cons_inj _).2 h1
    · intro a s' h
      rw [shown_edge_cons _ _ i r hr]
      rw [bind_awaitEdge_cons _ _ i r hr] at h
      obtain ⟨g1, g2⟩ := h2 a s' h
      exact ⟨by rw [g1], g2⟩
    · intro a s' h
      rw [bind_awaitEdge_cons _ _ i r hr] at h
      exact h3 a s' h
    · intro s' h
      rw [bind_awaitEdge_cons _ _ i r hr] at h
      rw [shown_edge_cons _ _ i r hr, List.length_cons, List.length_cons]
      have := h4 s' h
      omega

theorem shows_edges {β : Type} (n : Nat) {k : Unit → M MemIn MemOut β} {s : Sim MemIn MemOut} {exp : List (LogicArray × Logic × Logic)}
    {Q : Sim MemIn MemOut → Prop} (hs : s.phase = .edge)
    (h : ∀ s' : Sim MemIn MemOut, s'.out = s.out → s'.phase = .edge → s'.prev :: s'.cur :: s'.rest = (s.prev :: s.cur :: s.rest).drop n → Shows (memPins s.out) (k () s') exp Q) :
    Shows (memPins s.out) ((edges n >>= k) s) (List.replicate n (memPins s.out) ++ exp) Q := by
  induction n generalizing s with
  | zero => exact h s rfl hs rfl
  | succ n ih =>
    rw [List.replicate_succ, List.cons_append, edges, bind_assoc_run]
    refine shows_edge rfl (fun i r hr => ?_)
    refine ih (s := ⟨.edge, s.out, s.cur, i, r⟩) rfl (fun s' h1 h2 h3 => h s' h1 h2 ?_)
    rw [h3, hr, List.drop_succ_cons]

theorem memGather_ok (mem : Nat → Option Nat) (base n : Nat) : ∀ i, (∀ j < n, ∃ v, mem (base + i + j) = some v ∧ v < 256) →
    memGather mem base n i = .ok (256 ^ i * leVal ((List.range n).map (fun j => BitVec.ofNat 8 ((mem (base + i + j)).getD 0)))) := by
  induction n with
  | zero => intro i _; simp [memGather, leVal]
  | succ n ih =>
    intro i h
    obtain ⟨v, hv, hlt⟩ := h 0 (by omega)
    rw [memGather, show base + i = base + i + 0 by omega, hv]
    simp only
    rw [ih (i + 1) (fun j hj => by rw [show base + (i + 1) + j = base + i + (j + 1) by omega]; exact h (j + 1) (by omega))]
    simp only [bind, Except.bind, pure, Except.pure, Except.ok.injEq]
    rw [range_map_succ, leVal]
    simp only [Nat.add_zero] at hv ⊢
    rw [hv]
    simp only [Option.getD_some, BitVec.toNat_ofNat, Nat.shiftLeft_eq]
    have : ∀ j, base + (i + 1) + j = base + i + (j + 1) := by intro j; omega
    simp only [this]
    rw [show v % 2 ^ 8 = v from Nat.mod_eq_of_lt hlt, Nat.mul_add, Nat.pow_succ, Nat.mul_assoc, show 2 ^ (i * 8) = 256 ^ i by rw [pow256, Nat.mul_comm]]
    rw [Nat.mul_comm v]

theorem memBurstResp_ok (c : MemCfg) (mem : Nat → Option Nat) (a : Nat) (h : WordThere c mem a) (hb : c.width = 8 * (c.width / 8)) :
    ∃ r, memBurstResp c mem a = .ok r ∧ respBits c r = burstWord c mem a ∧ RespFits c r := by
  unfold memBurstResp burstWord
  cases hm : mem a with
  | none => exact ⟨.unknown, rfl, rfl, trivial⟩
  | some v =>
    simp only
    rcases h with h | h
    · rw [hm] at h; cases h
    · refine ⟨.value (bytesWord c mem a), ?_, rfl, ?_⟩
      · rw [MemCfg.size, memGather_ok mem a _ 0 (by simpa using h)]
        simp [bytesWord, bind, Except.bind, pure, Except.pure]
      · simp only [RespFits]
        have := leVal_range_lt (c.width / 8) (fun j => BitVec.ofNat 8 ((mem (a + j)).getD 0))
        rw [pow256, ← hb] at this
        exact this

theorem memBurstWords_shows {c : MemCfg} (hc : BurstMem c) (addr n : Nat) : ∀ (k : Nat) (s : Sim MemIn MemOut), s.phase = .edge → s.out.responses = [] →
    s.out.waitrequest = .zero → (∀ j < n, WordThere c s.out.mem (addr + (k + j) * (c.width / 8))) →
    addr % c.size = 0 →
    Shows (memPins s.out) (memBurstWords c (addr / c.size) n k s)
      ((List.range n).map (fun j => (burstWord c s.out.mem (addr + (k + j) * (c.width / 8)), .one, .zero)))
      (fun s' => s'.out.responses = [] ∧ s'.out.mem = s.out.mem ∧ s'.out.drawn = s.out.drawn ∧ s'.phase = .edge ∧
        s'.prev :: s'.cur :: s'.rest = (s.prev :: s.cur :: s.rest).drop n) := by
  induction n with
  | zero =>
    intro k s hs _ _ _ _
    exact ⟨by simp [memBurstWords, pure_run, memShown, End.sim], fun a s' h => by
      simp only [memBurstWords, pure_run, End.ok.injEq] at h
      obtain ⟨-, rfl⟩ := h
      exact ⟨by simp [memBurstWords, pure_run, memShown, End.sim], by assumption, rfl, rfl, hs, rfl⟩, fun e s' h => (by cases h), fun s' h => (by cases h)⟩
  | succ n ih =>
    intro k s hs hresp hwr hthere hal
    have haddr : (addr / c.size + k) * c.size = addr + k * (c.width / 8) := by
      have := Nat.div_add_mod addr c.size
      rw [hal, Nat.add_zero, Nat.mul_comm] at this
      rw [Nat.add_mul, this]; rfl
    obtain ⟨r, hr1, hr2, hr3⟩ := memBurstResp_ok c s.out.mem _ (hthere 0 (by omega)) hc.bytes
    rw [range_map_succ, memBurstWords, bind_getOut, haddr]
    simp only [Nat.add_zero] at hr1 hr2 ⊢
    rw [hr1, bind_ofExcept_ok, bind_setPy]
    have hin : ∀ (i : MemIn) (rr : List MemIn), s.rest = i :: rr →
        memDoResponse c (⟨.edge, { s.out with responses := s.out.responses ++ [some r] }, s.cur, i, rr⟩ : Sim MemIn MemOut) =
          ([], .ok () ⟨.edge, { s.out with responses := [], readdata := burstWord c s.out.mem (addr + k * (c.width / 8)), readdatavalid := .one }, s.cur, i, rr⟩) := by
      intro i rr hrr
      rw [memDoResponse_run c (by have := hc.bytes; omega) _ (by simp) (by
        intro r' h'
        simp [hresp] at h'
        rw [← h']; exact hr3)]
      simp [memPop, hresp, hc.rdv, hr2]
    refine shows_edge rfl (fun i rr hrr => ?_)
    simp only at hrr
    rw [bind_silent _ _ _ _ _ (hin i rr hrr)]
    have := ih (k + 1) ⟨.edge, { s.out with responses := [], readdata := burstWord c s.out.mem (addr + k * (c.width / 8)), readdatavalid := .one }, s.cur, i, rr⟩ rfl rfl hwr
      (fun j hj => by rw [show k + 1 + j = k + (j + 1) by omega]; exact hthere (j + 1) (by omega)) hal
    have hp : memPins ({ s.out with responses := [], readdata := burstWord c s.out.mem (addr + k * (c.width / 8)), readdatavalid := .one } : MemOut) =
        (burstWord c s.out.mem (addr + k * (c.width / 8)), .one, .zero) := by simp [memPins, hwr]
    simp only [hp] at this
    have hfun : (fun j => (burstWord c s.out.mem (addr + (k + (j + 1)) * (c.width / 8)), Logic.one, Logic.zero)) =
        (fun j => (burstWord c s.out.mem (addr + (k + 1 + j) * (c.width / 8)), Logic.one, Logic.zero)) := by
      funext j; rw [show k + (j + 1) = k + 1 + j by omega]
    rw [hfun]
    refine ⟨this.1, ?_, this.3, this.4⟩
    intro a s' h
    obtain ⟨g1, g2, g3, g3', g4, g5⟩ := this.2 a s' h
    refine ⟨g1, g2, g3, g3', g4, ?_⟩
    rw [g5, hrr, List.drop_succ_cons]

theorem Shows.bind_silent {α β : Type} {p : LogicArray × Logic × Logic} {s : Sim MemIn MemOut} {x : M MemIn MemOut α}
    {exp : List (LogicArray × Logic × Logic)} {Q : Sim MemIn MemOut → Prop}
    (h : Shows p (x s) exp Q) (f : α → M MemIn MemOut β) (b : β) (hf : ∀ a s', Q s' → f a s' = ([], .ok b s')) : Shows p ((x >>= f) s) exp Q := by
  rw [bind_run]
  cases hx : x s with
  | mk t e =>
    rw [hx] at h
    cases e with
    | ok a s' =>
      obtain ⟨g1, g2⟩ := h.ok a s' rfl
      rw [andThen_ok, hf a s' g2, List.append_nil]
      refine ⟨h.pre, ?_, ?_, fun s'' h' => (by cases h')⟩
      · intro a' s'' h'
        simp only [End.ok.injEq] at h'
        obtain ⟨-, rfl⟩ := h'
        exact ⟨g1, g2⟩
      · intro e s'' h'; cases h'
    | err e s' => exact absurd rfl (h.err e s')
    | blocked s' =>
      rw [andThen_blocked]
      exact ⟨h.pre, fun a s'' h' => (by cases h'), fun a s'' h' => (by cases h'), fun s'' _ => h.short s' rfl⟩

/-- a burst read, from the ReadOnly phase of the cycle with the request -/
theorem memBurstRead_shows {c : MemCfg} (hc : BurstMem c) (s : Sim MemIn MemOut) (hs : s.phase = .ro) (hresp : s.out.responses = [])
    (hrdv : s.out.readdatavalid = .zero) (ha : isResolvable s.cur.address = true) (hb : isResolvable s.cur.burstcount = true)
    (hal : bitsToNat s.cur.address % (c.width / 8) = 0)
    (hthere : ∀ k < bitsToNat s.cur.burstcount, WordThere c s.out.mem (bitsToNat s.cur.address + k * (c.width / 8))) :
    Shows (s.out.readdata, .zero, .one) (memBurstRead c s)
      ((s.out.readdata, .zero, .one) :: (List.replicate (c.readLatency + 1) (s.out.readdata, .zero, .zero) ++
        (List.range (bitsToNat s.cur.burstcount)).map (fun k => (burstWord c s.out.mem (bitsToNat s.cur.address + k * (c.width / 8)), .one, .zero))))
      (fun s' => s'.out.responses = [] ∧ s'.out.mem = s.out.mem ∧ s'.out.drawn = s.out.drawn ∧ s'.phase = .edge ∧
        s'.prev :: s'.cur :: s'.rest = (s.cur :: s.rest).drop (c.readLatency + 1 + bitsToNat s.cur.burstcount)) := by
  have hsz : c.size ≠ 0 := by have := hc.bytes; have := hc.pos; unfold MemCfg.size; omega
  unfold memBurstRead
  rw [bind_inp_ro _ _ hs, toUnsigned_ok _ ha, bind_ofExcept_ok]
  simp only [show (c.size == 0) = false by simpa using hsz, Coro.when, Bool.false_eq_true, if_false, pure_bind]
  rw [toUnsigned_ok _ hb, bind_ofExcept_ok]
  simp only [show c.beW.isNone = false by have := hc.be; cases h : c.beW <;> simp_all, Bool.false_eq_true, if_false, pure_bind]
  rw [bind_nextStep, bind_write _ _ _ (by simp)]
  refine shows_edge (by simp [memPins, hrdv]) (fun i r hr => ?_)
  rw [List.replicate_succ, List.cons_append]
  refine shows_edge (by simp [memPins, hrdv]) (fun j r' hr' => ?_)
  simp only at hr hr'
  subst hr'
  rw [bind_write _ _ _ (by simp)]
  have := shows_edges c.readLatency (k := fun _ => memBurstWords c (bitsToNat s.cur.address / c.size) (bitsToNat s.cur.burstcount) 0)
    (s := ⟨.edge, { s.out with waitrequest := .zero }, i, j, r'⟩) (exp := (List.range (bitsToNat s.cur.burstcount)).map
      (fun k => (burstWord c s.out.mem (bitsToNat s.cur.address + k * (c.width / 8)), .one, .zero)))
    (Q := fun s' => s'.out.responses = [] ∧ s'.out.mem = s.out.mem ∧ s'.out.drawn = s.out.drawn ∧ s'.phase = .edge ∧
        s'.prev :: s'.cur :: s'.rest = (s.cur :: s.rest).drop (c.readLatency + 1 + bitsToNat s.cur.burstcount)) rfl ?_
  · rw [show memPins ({ s.out with waitrequest := .zero } : MemOut) = (s.out.readdata, .zero, .zero) by simp [memPins, hrdv]] at this
    exact this
  · intro s' h1 h2 h3
    have hw := memBurstWords_shows hc (bitsToNat s.cur.address) (bitsToNat s.cur.burstcount) 0 s' h2 (by rw [h1]; exact hresp) (by rw [h1])
      (fun k hk => by rw [h1, Nat.zero_add]; exact hthere k hk) hal
    rw [h1] at hw
    have e1 : s'.out.mem = s.out.mem := by rw [h1]
    have e2 : s'.out.drawn = s.out.drawn := by rw [h1]
    simp only [Nat.zero_add] at hw
    refine ⟨hw.1, ?_, hw.3, hw.4⟩
    intro a s'' h
    obtain ⟨g1, g2, g3, g4, g5, g6⟩ := hw.2 a s'' h
    refine ⟨g1, g2, g3, g4, g5, ?_⟩
    rw [g6, h3, List.drop_drop, hr, show c.readLatency + 1 + bitsToNat s.cur.burstcount = (c.readLatency + bitsToNat s.cur.burstcount) + 1 by omega,
      List.drop_succ_cons]

theorem memWritePart_silent (c : MemCfg) (rand : Nat → Nat) (hc : BurstMem c) (s : Sim MemIn MemOut) (hp : s.phase = .edge) (hs : s.prev.write ≠ .one) :
    memWritePart c rand s = ([], .ok () s) := by
  unfold memWritePart
  simp only [hc.write.1, hc.write.2, Coro.when, if_true, Bool.not_true, Bool.false_eq_true, if_false, pure_bind]
  rw [bind_inp_edge _ _ hp]
  simp [hs, pure_run]

theorem memCycle_read_shows {c : MemCfg} (hc : BurstMem c) (rand : Nat → Nat) (s : Sim MemIn MemOut) (hresp : s.out.responses = [])
    (i : MemIn) (r : List MemIn) (hr : s.rest = i :: r) (hrd : i.read = .one)
    (hnw : ∀ j, s.rest[c.readLatency + 1 + bitsToNat i.burstcount]? = some j → j.write ≠ .one)
    (ha : isResolvable i.address = true) (hb : isResolvable i.burstcount = true)
    (hal : bitsToNat i.address % (c.width / 8) = 0)
    (hthere : ∀ k < bitsToNat i.burstcount, WordThere c s.out.mem (bitsToNat i.address + k * (c.width / 8))) :
    Shows (memPins s.out) (memCycle c rand s) (burstReadPins c s.out.mem s.out.readdata (bitsToNat i.address) (bitsToNat i.burstcount))
      (fun s' => s'.out.responses = [] ∧ s'.out.mem = s.out.mem ∧ s'.out.drawn = s.out.drawn ∧ s'.phase = .edge ∧
        s'.prev :: s'.cur :: s'.rest = (i :: r).drop (c.readLatency + 1 + bitsToNat i.burstcount)) := by
  unfold memCycle burstReadPins
  rw [List.cons_append, List.cons_append, List.cons_append, List.nil_append]
  refine shows_edge rfl (fun i' r' hr' => ?_)
  rw [hr] at hr'
  obtain ⟨rfl, rfl⟩ := List.cons.inj hr'
  rw [bind_silent _ _ _ _ _ (memDoResponse_run c (by have := hc.bytes; omega) ⟨.edge, s.out, s.cur, i, r⟩ (by simp) (by simp [hresp]))]
  have hpop : memPop c s.out = { s.out with responses := [], readdatavalid := .zero } := by simp [memPop, hresp, hc.rdv]
  rw [bind_readOnly _ _ _ (by simp), hpop]
  have hrp : memReadPart c rand (⟨.ro, { s.out with responses := [], readdatavalid := .zero }, s.cur, i, r⟩ : Sim MemIn MemOut) =
      memBurstRead c ⟨.ro, { s.out with responses := [], readdatavalid := .zero }, s.cur, i, r⟩ := by
    unfold memReadPart
    simp only [hc.read.1, hc.read.2, Coro.when, if_true, Bool.not_true, Bool.false_eq_true, if_false, pure_bind]
    rw [bind_inp_ro _ _ rfl]
    simp [hrd, MemCfg.burstRead, hc.burst, hc.rdv]
  have hm := memBurstRead_shows hc ⟨.ro, { s.out with responses := [], readdatavalid := .zero }, s.cur, i, r⟩ rfl rfl rfl ha hb hal hthere
  rw [← hrp] at hm
  refine Shows.bind_silent hm (fun _ => memWritePart c rand) () ?_
  rintro a s' ⟨-, -, -, h4, h5⟩
  refine memWritePart_silent c rand hc s' h4 (hnw _ ?_)
  have := congrArg (fun l => l[0]?) h5
  simp only [List.getElem?_cons_zero, List.getElem?_drop, Nat.add_zero] at this
  rw [hr, ← this]

end CocotbBus
