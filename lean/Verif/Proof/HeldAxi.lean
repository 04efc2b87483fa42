import Verif.Proof.Held
import Verif.Proof.AxiManyLive

/-! # The AXI4 master holds its offers -/

namespace CocotbBus.Hold
open Coro Spec
variable {I O α β W : Type}

/-- offered and not taken -/
def Pend (offers : O → Bool) (takes : I → Bool) (o : O) (i : I) : Prop := offers o = true ∧ takes i = false

/-- nothing is offered -/
def Quiet (offers : O → Bool) (takes : I → Bool) (l : O) (s : Sim I O) : Prop := ¬ Pend offers takes l s.prev ∧ offers s.out = false

variable {offers : O → Bool} {takes : I → Bool} {what : O → W}

theorem Quiet.steady {l : O} {s : Sim I O} (h : Quiet offers takes l s) : Steady what (Pend offers takes) l s := fun h' => absurd h' h.1

theorem Quiet.edge {l : O} {s : Sim I O} (h : Quiet offers takes l s) (i : I) (r : List I) :
    Quiet offers takes s.out { s with phase := .edge, prev := s.cur, cur := i, rest := r } :=
  ⟨fun h' => Bool.false_ne_true (h.2.symm.trans h'.1), h.2⟩

theorem HT.edges_quiet {E : O → Sim I O → Prop} (n : Nat) :
    HT what (Pend offers takes) (Quiet offers takes) (Coro.edges n : M I O Unit) (fun _ => Quiet offers takes) E :=
  HT.edges (Inv := Quiet offers takes) (fun _ _ h => h.steady) (fun _ _ i r h _ => h.edge i r) n

theorem HT.sync_quiet {E : O → Sim I O → Prop} (sync : Bool) :
    HT what (Pend offers takes) (Quiet offers takes) (Coro.when sync Coro.awaitEdge : M I O Unit) (fun _ => Quiet offers takes) E :=
  HT.when sync (fun _ => HT.awaitEdge (fun _ _ h => h.steady) (fun _ _ i r h _ => h.edge i r)) (fun _ _ _ h => h)

theorem HT.waitUntil_quiet {E : O → Sim I O → Prop} (t : Moment) :
    HT what (Pend offers takes) (Quiet offers takes) (waitUntil t : M I O Unit) (fun _ => Quiet offers takes) E := by
  refine HT.bind (S := fun _ => Quiet offers takes) (HT.silent fun l s hs => .inl ⟨_, s, rfl, ⟨rfl, rfl, rfl⟩, hs⟩) fun m => ?_
  refine HT.bind (S := fun _ => Quiet offers takes) (HT.edges_quiet _) fun _ => ?_
  refine HT.bind (S := fun _ => Quiet offers takes) (HT.silent fun l s hs => .inl ⟨_, s, rfl, ⟨rfl, rfl, rfl⟩, hs⟩) fun m => ?_
  exact HT.when _ (fun _ => HT.silent fun l s hs => .inl ⟨_, _, rfl, ⟨rfl, rfl, rfl⟩, hs⟩) (fun _ _ _ h => h)

theorem follows_const (pend : O → I → Prop) (o : O) (l : O) (li : I) (h : pend l li → what o = what l) (t : List I) :
    Follows what pend l li (t.map (fun i => (o, i))) := by
  induction t generalizing l li with
  | nil => trivial
  | cons i t ih => exact ⟨h, ih o i (fun _ => rfl)⟩

/-- the records until the end of the simulation -/
theorem follows_records (pend : O → I → Prop) (l : O) (li : I) (r : Res I O Unit) (h : Follows what pend l li r.1)
    (h2 : pend (lastOut l r.1) (lastIn li r.1) → what r.2.sim.out = what (lastOut l r.1)) : Follows what pend l li (records r) :=
  follows_append _ _ _ _ h (follows_const pend _ _ _ h2 _)

/-- jobs that take turns -/
theorem locked_follows (body : α → M I O β) (l : List (α × Moment))
    (hb : ∀ x ∈ l, HT what (Pend offers takes) (Quiet offers takes) (body x.1) (fun _ => Quiet offers takes) (Quiet offers takes)) :
    ∀ (o : O) (s : Sim I O), Quiet offers takes o s → Follows what (Pend offers takes) o s.prev (records (locked body l s).2) := by
  suffices h : ∀ (o : O) (s : Sim I O), Quiet offers takes o s → Follows what (Pend offers takes) o s.prev (locked body l s).2.1 ∧
      (Pend offers takes (lastOut o (locked body l s).2.1) (lastIn s.prev (locked body l s).2.1) →
        what (locked body l s).2.2.sim.out = what (lastOut o (locked body l s).2.1)) from
    fun o s hs => follows_records _ _ _ _ (h o s hs).1 (h o s hs).2
  induction l with
  | nil => exact fun o s hs => ⟨trivial, hs.steady⟩
  | cons x l ih =>
    intro o s hs
    have H := HT.bind (HT.waitUntil_quiet x.2) (fun _ : Unit => hb x (.head _))
    have h0 := H.follows o s hs
    have h1 := H.prev o s hs
    have h2 := H.ok o s hs
    have h3 := H.err o s hs
    have h4 := H.blocked o s hs
    have ih := ih (fun y hy => hb y (.tail _ hy))
    obtain ⟨x, t⟩ := x
    rw [locked]
    generalize (waitUntil t >>= fun _ => body x) s = r at h0 h1 h2 h3 h4
    obtain ⟨u, e⟩ := r
    cases e with
    | ok b s' =>
      have h5 := ih _ _ (h2 b s' rfl)
      have h6 : s'.prev = lastIn s.prev u := h1
      rw [h6] at h5
      exact ⟨follows_append _ _ _ _ h0 h5.1, by rw [lastOut_append, lastIn_append]; exact h5.2⟩
    | err b s' =>
      have h5 := ih _ _ (h3 b s' rfl)
      have h6 : s'.prev = lastIn s.prev u := h1
      rw [h6] at h5
      exact ⟨follows_append _ _ _ _ h0 h5.1, by rw [lastOut_append, lastIn_append]; exact h5.2⟩
    | blocked s' =>
      have h6 : s'.prev = lastIn s.prev u := h1
      have h7 := h4 s' rfl
      refine ⟨h0, ?_⟩
      have h8 : Pend offers takes (lastOut o u) (lastIn s.prev u) → what s'.out = what (lastOut o u) := by rw [← h6]; exact h7
      exact h8

/-- a write of a number that fits -/
theorem HT.writeInt {P E : O → Sim I O → Prop} {Q : Unit → O → Sim I O → Prop} {pend : O → I → Prop} (w n : Nat) (f : LogicArray → O → O)
    (hQ : n < 2 ^ w → ∀ l s, P l s → s.phase ≠ .ro → Q () l { s with out := f (natToBits w n) s.out })
    (hE : ∀ l s, P l s → s.phase = .ro ∨ ¬ n < 2 ^ w → E l s) : HT what pend P (writeInt w n f : M I O Unit) Q E := by
  unfold CocotbBus.writeInt
  refine HT.ite (fun h => HT.write _ (hQ h) (fun l s hs h => hE l s hs (.inl h))) (fun h => HT.raise _ (fun l s hs => hE l s hs (.inr h)))

/-! ### The address channels -/

def addrOffers (o : AddrOut) : Bool := o.valid == .one

/-- the address channel may be set up: nothing is pending, and it is not the ReadOnly phase -/
def SetUp (offers : O → Bool) (takes : I → Bool) (l : O) (s : Sim I O) : Prop := ¬ Pend offers takes l s.prev ∧ s.phase ≠ .ro

theorem SetUp.steady {l : O} {s : Sim I O} (h : SetUp offers takes l s) : Steady what (Pend offers takes) l s := fun h' => absurd h' h.1

theorem HT.setAddr (c : AxCfg) (a len size : Nat) (burst : AxiBurst) (takes : AxIn → Bool)
    (hf : c.full = true → burst.code < 2 ^ c.burstW ∧ len - 1 < 2 ^ c.lenW ∧ bitLength size - 1 < 2 ^ c.sizeW) :
    HT id (Pend addrOffers takes) (Quiet addrOffers takes) (setAddr c a len size burst) (fun _ => SetUp addrOffers takes) (Quiet addrOffers takes) := by
  unfold CocotbBus.setAddr
  refine HT.bind (S := fun _ => SetUp addrOffers takes) (HT.writeInt _ _ _ (fun _ l s hs hp => ⟨hs.1, hp⟩) (fun l s hs _ => hs)) fun _ => ?_
  refine HT.bind (S := fun _ => SetUp addrOffers takes) (HT.write _ (fun l s hs hp => ⟨hs.1, hp⟩) (fun l s hs h => absurd h hs.2)) fun _ => ?_
  refine HT.when _ (fun h => ?_) (fun _ _ _ h => h)
  obtain ⟨h1, h2, h3⟩ := hf h
  refine HT.bind (S := fun _ => SetUp addrOffers takes) (HT.writeInt _ _ _ (fun _ l s hs hp => ⟨hs.1, hp⟩)
    (fun l s hs h => (h.elim hs.2 (fun h => h h1)).elim)) fun _ => ?_
  refine HT.bind (S := fun _ => SetUp addrOffers takes) (HT.writeInt _ _ _ (fun _ l s hs hp => ⟨hs.1, hp⟩)
    (fun l s hs h => (h.elim hs.2 (fun h => h h2)).elim)) fun _ => ?_
  exact HT.writeInt _ _ _ (fun _ l s hs hp => ⟨hs.1, hp⟩) (fun l s hs h => (h.elim hs.2 (fun h => h h3)).elim)

theorem HT.addrHandshake (ready : AxIn → Logic) {E : AddrOut → Sim AxIn AddrOut → Prop} :
    HT id (Pend addrOffers (fun i => ready i == .one)) (SetUp addrOffers (fun i => ready i == .one)) (addrHandshake ready)
      (fun _ => Quiet addrOffers (fun i => ready i == .one)) E := by
  unfold CocotbBus.addrHandshake
  refine HT.bind (S := fun _ l s => Steady id (Pend addrOffers (fun i => ready i == .one)) l s ∧ (ready s.cur == .one) = true) (HT.waitRO (J := fun _ => True) _
    (fun l s hs => ⟨hs.steady, trivial⟩) (fun l s hs h => absurd h hs.2) (fun l s h _ _ ht => ⟨h, Except.ok.inj ht⟩) (fun l s e _ _ h => by cases h)) fun _ => ?_
  refine HT.bind (S := fun _ => SetUp addrOffers (fun i => ready i == .one)) (HT.awaitEdge (fun l s hs => hs.1)
    (fun l s i r hs _ => ⟨fun h => Bool.false_ne_true (h.2.symm.trans hs.2), Phase.noConfusion⟩)) fun _ => ?_
  exact HT.write _ (fun l s hs hp => ⟨hs.1, rfl⟩) (fun l s hs h => absurd h hs.2)

/-- what the checks leave fits the signals of the address channel -/
theorem checks_fit (c : AxCfg) (hc : Standard c) (a : Nat) (len : Int) (size : Option Int) (burst : AxiBurst) (sz : Nat) (h : axiChecks c a len size burst = .ok sz) :
    burst.code < 2 ^ c.burstW ∧ len.toNat - 1 < 2 ^ c.lenW ∧ bitLength sz - 1 < 2 ^ c.sizeW := by
  obtain ⟨⟨j, hj, hW⟩, h8, h3, h2⟩ := hc
  obtain ⟨hb, hl, -⟩ := (axiChecks_ok c a len size burst sz j hW (by omega)).1 h
  rw [h8, h3, h2]
  refine ⟨by cases burst <;> decide, ?_, ?_⟩
  · have : len.toNat ≤ 256 := by
      unfold LengthOk at hl
      split at hl <;> omega
    omega
  · obtain ⟨k, hk, hk7⟩ : ∃ k, sz = 2 ^ k ∧ k ≤ 7 := by
      unfold BeatSize at hb
      split at hb
      · exact ⟨j, by rw [hb, hW], hj⟩
      · obtain ⟨⟨k, e1, e2⟩, e3⟩ := hb
        refine ⟨k, by rw [e1] at e3; exact_mod_cast e3.symm, ?_⟩
        rw [hW] at e2
        exact Nat.le_trans ((Nat.pow_le_pow_iff_right (by omega)).1 e2) hj
    rw [hk, bitLength_two_pow]
    omega

theorem HT.addrJob (c : AxCfg) (hc : Standard c) (a : Nat) (len : Int) (size : Option Int) (burst : AxiBurst) (delay : Nat) (sync : Bool) (ready : AxIn → Logic)
    (n : Nat) (hn : n = len.toNat) :
    HT id (Pend addrOffers (fun i => ready i == .one)) (Quiet addrOffers (fun i => ready i == .one))
      (Coro.ofExcept (axiChecks c a len size burst) >>= fun sz => Coro.when sync Coro.awaitEdge >>= fun _ => Coro.edges delay >>= fun _ =>
        CocotbBus.setAddr c a n sz burst >>= fun _ => CocotbBus.addrHandshake ready)
      (fun _ => Quiet addrOffers (fun i => ready i == .one)) (Quiet addrOffers (fun i => ready i == .one)) := by
  refine HT.bind (S := fun sz l s => Quiet addrOffers (fun i => ready i == .one) l s ∧ axiChecks c a len size burst = .ok sz) (HT.ofExcept _ (fun a l s h hs => ⟨hs, h⟩)
    (fun e l s h hs => hs)) fun sz => ?_
  by_cases h : axiChecks c a len size burst = .ok sz
  · refine HT.weaken (P := Quiet addrOffers (fun i => ready i == .one)) ?_ (fun l s hs => hs.1) (fun a l s h => h)
    refine HT.bind (HT.sync_quiet _) fun _ => ?_
    refine HT.bind (HT.edges_quiet _) fun _ => ?_
    refine HT.bind (HT.setAddr c a n sz burst _ (fun _ => ?_)) fun _ => ?_
    · rw [hn]; exact checks_fit c hc a len size burst sz h
    exact HT.addrHandshake ready
  · exact HT.never fun l s hs => h hs.2

theorem HT.awJob (c : AxCfg) (hc : Standard c) (op : AxOp) :
    HT id (Pend addrOffers (fun i : AxIn => i.awready == .one)) (Quiet addrOffers (fun i => i.awready == .one)) (awJob c op)
      (fun _ => Quiet addrOffers (fun i => i.awready == .one)) (Quiet addrOffers (fun i => i.awready == .one)) := by
  cases op with
  | write a v size burst be al dl sync => exact HT.addrJob c hc a v.length size burst al sync _ _ rfl
  | liteWrite a v be al dl sync => exact HT.addrJob c hc a 1 none .incr al sync _ _ rfl
  | _ => exact HT.pure _ (fun _ _ h => h)

theorem HT.arJob (c : AxCfg) (hc : Standard c) (op : AxOp) :
    HT id (Pend addrOffers (fun i : AxIn => i.arready == .one)) (Quiet addrOffers (fun i => i.arready == .one)) (arJob c op)
      (fun _ => Quiet addrOffers (fun i => i.arready == .one)) (Quiet addrOffers (fun i => i.arready == .one)) := by
  cases op with
  | read a len size burst sync => exact HT.addrJob c hc a len size burst 0 sync _ _ rfl
  | liteRead a sync => exact HT.addrJob c hc a 1 none .incr 0 sync _ _ rfl
  | _ => exact HT.pure _ (fun _ _ h => h)

/-! ### The write data channel -/

def wdOffers (o : WOut) : Bool := o.valid == .one

def wdTakes (i : AxIn) : Bool := i.wready == .one

theorem HT.wAccept {E : WOut → Sim AxIn WOut → Prop} :
    HT id (Pend wdOffers wdTakes) (Steady id (Pend wdOffers wdTakes)) wAccept (fun _ => SetUp wdOffers wdTakes) E := by
  refine HT.loop (Inv := fun _ => Steady id (Pend wdOffers wdTakes)) _ (fun _ => ?_) (fun _ _ _ h => h) ()
  refine HT.bind (S := fun _ l s => s.out = l ∧ s.phase = .edge) (HT.awaitEdge (fun _ _ h => h) (fun l s i r _ _ => ⟨rfl, rfl⟩)) fun _ => ?_
  refine HT.bind (S := fun i l s => (s.out = l ∧ s.phase = .edge) ∧ i = s.prev) (HT.inp (fun l s hs => ⟨hs, by rw [hs.2]⟩)) fun i => ?_
  by_cases h : i.wready = .one
  · rw [if_pos h]
    refine HT.pure _ (fun l s hs => ⟨fun hp => ?_, by rw [hs.1.2]; decide⟩)
    have : wdTakes s.prev = true := by rw [← hs.2]; unfold wdTakes; rw [h]; rfl
    exact Bool.false_ne_true (hp.2.symm.trans this)
  · rw [if_neg h]
    exact HT.pure _ (fun l s hs _ => by rw [hs.1.1])

theorem HT.beat (c : AxCfg) (r : List (Nat × Nat)) (word strobe : Nat) (hw : word < 2 ^ (8 * c.dataBytes)) (hst : strobe < 2 ^ c.dataBytes)
    {E : WOut → Sim AxIn WOut → Prop} (k : M AxIn WOut Unit) {Q : Unit → WOut → Sim AxIn WOut → Prop}
    (hk : HT id (Pend wdOffers wdTakes) (fun l s => SetUp wdOffers wdTakes l s ∧ (r.isEmpty = true → wdOffers s.out = false)) k Q E) :
    HT id (Pend wdOffers wdTakes) (SetUp wdOffers wdTakes) (do
      CocotbBus.writeInt (8 * c.dataBytes) word (fun v o => { o with data := v })
      CocotbBus.writeInt c.dataBytes strobe (fun v o => { o with strb := v })
      Coro.when c.hasWlast (Coro.write (fun o => { o with last := if r.isEmpty then .one else .zero }))
      CocotbBus.wAccept
      Coro.when r.isEmpty (Coro.write (fun o => { o with valid := .zero }))
      k) Q E := by
  refine HT.bind (S := fun _ => SetUp wdOffers wdTakes) (HT.writeInt _ _ _ (fun _ l s hs hp => ⟨hs.1, hp⟩) (fun l s hs h => (h.elim hs.2 (fun h => h hw)).elim)) fun _ => ?_
  refine HT.bind (S := fun _ => SetUp wdOffers wdTakes) (HT.writeInt _ _ _ (fun _ l s hs hp => ⟨hs.1, hp⟩) (fun l s hs h => (h.elim hs.2 (fun h => h hst)).elim)) fun _ => ?_
  refine HT.bind (S := fun _ => SetUp wdOffers wdTakes) (HT.when _ (fun _ => HT.write _ (fun l s hs hp => ⟨hs.1, hp⟩) (fun l s hs h => absurd h hs.2))
    (fun _ _ _ h => h)) fun _ => ?_
  refine HT.bind (HT.weaken HT.wAccept (fun l s hs => hs.steady) (fun _ _ _ h => h)) fun _ => ?_
  refine HT.bind (HT.when _ (fun _ => HT.write _ (fun l s hs hp => ⟨⟨hs.1, hp⟩, fun _ => rfl⟩) (fun l s hs h => absurd h hs.2))
    (fun h l s hs => ⟨hs, fun h' => by rw [h] at h'; cases h'⟩)) fun _ => hk

/-- the beats after the first one -/
theorem HT.sendBeats (c : AxCfg) (l : List (Nat × Nat)) (hl : ∀ x ∈ l, x.1 < 2 ^ (8 * c.dataBytes) ∧ x.2 < 2 ^ c.dataBytes) {E : WOut → Sim AxIn WOut → Prop} :
    HT id (Pend wdOffers wdTakes) (fun o s => SetUp wdOffers wdTakes o s ∧ (l.isEmpty = true → wdOffers s.out = false)) (sendBeats c 0 l) (fun _ => Quiet wdOffers wdTakes) E := by
  induction l with
  | nil => exact HT.pure _ (fun o s hs => ⟨hs.1.1, hs.2 rfl⟩)
  | cons x r ih =>
    obtain ⟨word, strobe⟩ := x
    refine HT.bind (S := fun _ => SetUp wdOffers wdTakes) (HT.pure _ (fun o s hs => hs.1)) fun _ => ?_
    refine HT.bind (S := fun _ => SetUp wdOffers wdTakes) (HT.write _ (fun l s hs hp => ⟨hs.1, hp⟩) (fun l s hs h => absurd h hs.2)) fun _ => ?_
    exact HT.beat c r word strobe (hl _ (.head _)).1 (hl _ (.head _)).2 _ (ih (fun y hy => hl y (.tail _ hy)))

/-- all beats -/
theorem HT.allBeats (c : AxCfg) (delay : Nat) (l : List (Nat × Nat)) (hl : ∀ x ∈ l, x.1 < 2 ^ (8 * c.dataBytes) ∧ x.2 < 2 ^ c.dataBytes) (hd : delay = 0 ∨ l.length ≤ 1) :
    HT id (Pend wdOffers wdTakes) (Quiet wdOffers wdTakes) (CocotbBus.sendBeats c delay l) (fun _ => Quiet wdOffers wdTakes) (Quiet wdOffers wdTakes) := by
  cases l with
  | nil => exact HT.pure _ (fun _ _ h => h)
  | cons x r =>
    obtain ⟨word, strobe⟩ := x
    refine HT.bind (HT.edges_quiet _) fun _ => ?_
    refine HT.bind (S := fun _ => SetUp wdOffers wdTakes) (HT.write _ (fun l s hs hp => ⟨hs.1, hp⟩) (fun l s hs h => hs)) fun _ => ?_
    refine HT.beat c r word strobe (hl _ (.head _)).1 (hl _ (.head _)).2 _ ?_
    rcases hd with rfl | hd
    · exact HT.sendBeats c r (fun y hy => hl y (.tail _ hy))
    · obtain rfl : r = [] := by cases r with
        | nil => rfl
        | cons _ _ => simp at hd
      exact HT.pure _ (fun o s hs => ⟨hs.1.1, hs.2 rfl⟩)

theorem strobes_nil (size n : Nat) : axiStrobes size (n + 1) [] [] = .error .indexError := rfl

theorem HT.wJobOf (c : AxCfg) (hc : Standard c) (a : Nat) (v : List Nat) (n : Int) (hn : n = v.length) (size : Option Int) (burst : AxiBurst) (be : List (Option Nat)) (dl : Nat) (sync : Bool)
    (hd : dl = 0 ∨ v.length ≤ 1) :
    HT id (Pend wdOffers wdTakes) (Quiet wdOffers wdTakes)
      (Coro.ofExcept (axiChecks c a n size burst) >>= fun sz => sendWriteData c a v burst sz dl be sync)
      (fun _ => Quiet wdOffers wdTakes) (Quiet wdOffers wdTakes) := by
  refine HT.bind (S := fun sz l s => Quiet wdOffers wdTakes l s ∧ axiChecks c a n size burst = .ok sz) (HT.ofExcept _ (fun a l s h hs => ⟨hs, h⟩)
    (fun e l s h hs => hs)) fun sz => ?_
  by_cases h : axiChecks c a n size burst = .ok sz
  · refine HT.weaken (P := Quiet wdOffers wdTakes) ?_ (fun l s hs => hs.1) (fun a l s h => h)
    refine HT.bind (S := fun b l s => Quiet wdOffers wdTakes l s ∧ axiWriteBeats c.dataBytes sz a burst v be = .ok b) (HT.ofExcept _ (fun a l s h hs => ⟨hs, h⟩)
      (fun e l s h hs => hs)) fun beats => ?_
    by_cases h2 : axiWriteBeats c.dataBytes sz a burst v be = .ok beats
    · refine HT.weaken (P := Quiet wdOffers wdTakes) ?_ (fun l s hs => hs.1) (fun a l s h => h)
      refine HT.bind (HT.sync_quiet _) fun _ => ?_
      obtain ⟨⟨j, hj, hW⟩, -⟩ := hc
      obtain ⟨hb, hl, -⟩ := (axiChecks_ok c a n size burst sz j hW (by omega)).1 h
      obtain ⟨k, hk, hkj⟩ : ∃ k, sz = 2 ^ k ∧ k ≤ j := by
        unfold BeatSize at hb
        split at hb
        · exact ⟨j, by rw [hb, hW], Nat.le_refl _⟩
        · obtain ⟨⟨k, e1, e2⟩, e3⟩ := hb
          refine ⟨k, by rw [e1] at e3; exact_mod_cast e3.symm, ?_⟩
          rw [hW] at e2
          exact (Nat.pow_le_pow_iff_right (by omega)).1 e2
      have hbe : be ≠ [] := by
        rintro rfl
        have h1 : 1 ≤ v.length := by
          unfold LengthOk at hl
          split at hl <;> omega
        obtain ⟨m, hm⟩ := Nat.exists_eq_add_of_le h1
        unfold axiWriteBeats at h2
        rw [hm, Nat.add_comm, strobes_nil] at h2
        cases h2
      have hW' : c.dataBytes = sz * 2 ^ (j - k) := by rw [hW, hk, ← Nat.pow_add]; congr 1; omega
      obtain ⟨b, b1, b2, b3⟩ := axiWriteBeats_ok sz (2 ^ (j - k)) a (by rw [hk]; exact Nat.two_pow_pos _) (Nat.two_pow_pos _) burst v be hbe
      rw [← hW'] at b1 b3
      rw [b1] at h2
      cases h2
      exact HT.allBeats c dl _ b3 (by rw [b2]; exact hd)
    · exact HT.never fun l s hs => h2 hs.2
  · exact HT.never fun l s hs => h hs.2

theorem HT.wJob (c : AxCfg) (hc : Standard c) (op : AxOp) (h : NoGaps op) :
    HT id (Pend wdOffers wdTakes) (Quiet wdOffers wdTakes) (wJob c op) (fun _ => Quiet wdOffers wdTakes) (Quiet wdOffers wdTakes) := by
  cases op with
  | write a v size burst be al dl sync => exact HT.wJobOf c hc a v _ rfl size burst be dl sync h
  | liteWrite a v be al dl sync => exact HT.wJobOf c hc a [v] 1 rfl none .incr [be] dl sync (.inr (Nat.le_refl 1))
  | _ => exact HT.pure _ (fun _ _ h => h)

theorem held_map {P O' : Type} (f : O → O') {offers : O' → Bool} {takes : I → Bool} {what : O' → P} {t : List (O × I)}
    (h : Held offers takes what (t.map (fun q => (f q.1, q.2)))) : Held (fun o => offers (f o)) takes (fun o => what (f o)) t := by
  intro n a b ha hb
  exact h n (f a.1, a.2) (f b.1, b.2) (by rw [List.getElem?_map, ha]; rfl) (by rw [List.getElem?_map, hb]; rfl)

theorem quiet_start (s : Sim I O) (h : offers s.out = false) : Quiet offers takes s.out s := ⟨fun h' => Bool.false_ne_true (h.symm.trans h'.1), h⟩

end CocotbBus.Hold
