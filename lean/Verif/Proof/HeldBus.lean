import Verif.Proof.HeldAxi
import Verif.Model.Session
import Verif.Model.MmTasks
import Verif.Spec.MmUse

/-! # The other buses hold their offers -/

namespace CocotbBus.Hold
open Coro Spec
variable {I O α β σ W : Type} {offers : O → Bool} {takes : I → Bool} {what : O → W}

/-- nothing is pending -/
def Calm (offers : O → Bool) (takes : I → Bool) (l : O) (s : Sim I O) : Prop := ¬ Pend offers takes l s.prev

/-- it will be taken at the next edge -/
def Acc (what : O → W) (offers : O → Bool) (takes : I → Bool) (l : O) (s : Sim I O) : Prop := Steady what (Pend offers takes) l s ∧ takes s.cur = true

theorem Calm.steady {l : O} {s : Sim I O} (h : Calm offers takes l s) : Steady what (Pend offers takes) l s := fun h' => absurd h' h

theorem Quiet.calm {l : O} {s : Sim I O} (h : Quiet offers takes l s) : Calm offers takes l s := h.1

theorem Acc.edge {l : O} {s : Sim I O} (h : Acc what offers takes l s) (i : I) (r : List I) :
    SetUp offers takes s.out { s with phase := .edge, prev := s.cur, cur := i, rest := r } :=
  ⟨fun h' => Bool.false_ne_true (h'.2.symm.trans h.2), Phase.noConfusion⟩

theorem SetUp.calm {l : O} {s : Sim I O} (h : SetUp offers takes l s) : Calm offers takes l s := h.1

/-- a write while nothing is pending -/
theorem HT.write_calm {P : O → Sim I O → Prop} (hP : ∀ l s, P l s → Calm offers takes l s) (f : O → O) :
    HT what (Pend offers takes) P (Coro.write f : M I O Unit) (fun _ => SetUp offers takes) (Steady what (Pend offers takes)) :=
  HT.write f (fun l s hs hp => ⟨hP l s hs, hp⟩) (fun l s hs _ => (hP l s hs).steady)

theorem HT.writeInt_calm {P : O → Sim I O → Prop} (hP : ∀ l s, P l s → Calm offers takes l s) (w n : Nat) (f : LogicArray → O → O) :
    HT what (Pend offers takes) P (CocotbBus.writeInt w n f : M I O Unit) (fun _ => SetUp offers takes) (Steady what (Pend offers takes)) :=
  HT.writeInt w n f (fun _ l s hs hp => ⟨hP l s hs, hp⟩) (fun l s hs _ => (hP l s hs).steady)

/-- a write after which nothing is offered -/
theorem HT.write_quiet {P : O → Sim I O → Prop} (hP : ∀ l s, P l s → Calm offers takes l s) (f : O → O) (hf : ∀ o, offers (f o) = false) :
    HT what (Pend offers takes) P (Coro.write f : M I O Unit) (fun _ => Quiet offers takes) (Steady what (Pend offers takes)) :=
  HT.write f (fun l s hs _ => ⟨hP l s hs, hf _⟩) (fun l s hs _ => (hP l s hs).steady)

theorem HT.gap {P : O → Sim I O → Prop} (hP : ∀ l s, P l s → Calm offers takes l s) (lower : O → O) (hf : ∀ o, offers (lower o) = false) (v : Valids) :
    HT what (Pend offers takes) P (gapM lower v : M I O Valids) (fun _ => Calm offers takes) (Steady what (Pend offers takes)) := by
  unfold gapM
  refine HT.ite (fun _ => ?_) (fun _ => HT.pure _ hP)
  exact HT.bind (HT.write_quiet hP lower hf) fun _ => HT.bind (HT.edges_quiet _) fun _ => HT.pure _ (fun _ _ h => h.calm)

/-- everything that was driven until an exception or the end, and after it -/
theorem held_of (x : M I O α) {P E : O → Sim I O → Prop} {Q : α → O → Sim I O → Prop} (h : HT what (Pend offers takes) P x Q E)
    (hQ : ∀ a l s, Q a l s → Steady what (Pend offers takes) l s) (hE : ∀ l s, E l s → Steady what (Pend offers takes) l s) (l : O) (s : Sim I O) (hs : P l s) :
    Follows what (Pend offers takes) l s.prev (records (x s)) := by
  refine follows_append _ _ _ _ (h.follows l s hs) (follows_const _ _ _ _ ?_ _)
  have h1 := h.prev l s hs
  have h2 := h.ok l s hs
  have h3 := h.err l s hs
  have h4 := h.blocked l s hs
  rw [← h1]
  cases he : (x s).2 with
  | ok a s' => rw [he] at h1; exact hQ a _ s' (h2 a s' he)
  | err e s' => exact hE _ s' (h3 e s' he)
  | blocked s' => exact h4 s' he

/-! ### Sessions and queues -/

theorem HT.session (send : α → Valids → M I O Valids) (acts : List (Act α))
    (hs : ∀ x, Act.send x ∈ acts → ∀ v, HT what (Pend offers takes) (Quiet offers takes) (send x v) (fun _ => Quiet offers takes) (Steady what (Pend offers takes))) :
    ∀ v, HT what (Pend offers takes) (Quiet offers takes) (session send acts v) (fun _ => Quiet offers takes) (Steady what (Pend offers takes)) := by
  induction acts with
  | nil => exact fun v => HT.pure v (fun _ _ h => h)
  | cons a r ih =>
    have ih := ih (fun x hx => hs x (.tail _ hx))
    intro v
    cases a with
    | send x => exact HT.bind (hs x (.head _) v) fun v => ih v
    | pause n => exact HT.bind (HT.edges_quiet n) fun _ => ih v
    | step => exact HT.bind (HT.nextStep (fun l s hs => hs)) fun _ => ih v
    | gen g => exact ih _

theorem HT.queueWait (app : Sched α) (k : Nat) {E : O → Sim I O → Prop} :
    HT what (Pend offers takes) (Quiet offers takes) (queueWait app k) (fun _ => Quiet offers takes) E := by
  refine HT.loop (Inv := fun _ => Quiet offers takes) _ (fun _ => ?_) (fun _ _ _ h => h.steady) ()
  refine HT.bind (S := fun _ => Quiet offers takes) (HT.silent fun l s hs => .inl ⟨_, s, rfl, ⟨rfl, rfl, rfl⟩, hs⟩) fun m => ?_
  refine HT.ite (fun _ => HT.pure _ (fun _ _ h => h)) (fun _ => ?_)
  refine HT.ite (fun _ => ?_) (fun _ => ?_)
  · exact HT.bind (S := fun _ => Quiet offers takes) (HT.silent fun l s hs => .inl ⟨(), _, rfl, ⟨rfl, rfl, rfl⟩, hs⟩) fun _ => HT.pure _ (fun _ _ h => h)
  refine HT.ite (fun _ => ?_) (fun _ => ?_)
  · exact HT.bind (S := fun _ => Quiet offers takes) (HT.silent fun l s hs => .inl ⟨(), _, rfl, ⟨rfl, rfl, rfl⟩, hs⟩) fun _ => HT.pure _ (fun _ _ h => h)
  exact HT.bind (S := fun _ => Quiet offers takes) (HT.awaitEdge (fun _ _ h => h.steady) (fun _ _ i r h _ => h.edge i r)) fun _ => HT.pure _ (fun _ _ h => h)

theorem HT.queueThread (send : α → Bool → σ → M I O σ) (app : Sched α) (v : σ)
    (hs : ∀ x sync v, HT what (Pend offers takes) (Quiet offers takes) (send x sync v) (fun _ => Quiet offers takes) (Steady what (Pend offers takes))) :
    HT what (Pend offers takes) (Quiet offers takes) (queueThread send app v) (fun _ => Quiet offers takes) (Steady what (Pend offers takes)) := by
  refine HT.loop (Inv := fun _ => Quiet offers takes) _ (fun st => ?_) (fun _ _ _ h => h.steady) _
  refine HT.bind (S := fun _ => Quiet offers takes) (HT.silent fun l s hs => .inl ⟨_, s, rfl, ⟨rfl, rfl, rfl⟩, hs⟩) fun m => ?_
  cases (app m.1 m.2)[st.1]? with
  | some x => exact HT.bind (hs x _ _) fun v => HT.pure _ (fun _ _ h => h)
  | none =>
    refine HT.bind (HT.queueWait app _) fun _ => ?_
    refine HT.bind (S := fun _ => Quiet offers takes) (HT.silent fun l s hs => .inl ⟨_, s, rfl, ⟨rfl, rfl, rfl⟩, hs⟩) fun m => ?_
    cases (app m.1 m.2)[st.1]? with
    | some x => exact HT.bind (hs x _ _) fun v => HT.pure _ (fun _ _ h => h)
    | none => exact HT.hang (fun _ _ h => h.steady)

/-! ### Avalon-ST -/

theorem HT.stSend (c : StCfg) (x : AvVal) (sync : Bool) (v : Valids) :
    HT id (Pend stOffers (stTakes c)) (Quiet stOffers (stTakes c)) (stSend c x sync v) (fun _ => Quiet stOffers (stTakes c)) (Steady id (Pend stOffers (stTakes c))) := by
  unfold CocotbBus.stSend
  refine HT.bind (HT.write_quiet (fun _ _ h => h.calm) _ (fun _ => rfl)) fun _ => ?_
  refine HT.bind (HT.sync_quiet _) fun _ => ?_
  refine HT.bind (HT.gap (fun _ _ h => h.calm) _ (fun _ => rfl) _) fun v => ?_
  refine HT.bind (HT.write_calm (fun _ _ h => h) _) fun _ => ?_
  refine HT.bind (S := fun _ => SetUp stOffers (stTakes c)) (HT.ofExcept _ (fun _ _ _ _ h => h) (fun _ _ _ _ h => h.steady)) fun d => ?_
  refine HT.bind (HT.write_calm (fun _ _ h => h.calm) _) fun _ => ?_
  refine HT.bind (S := fun _ => Acc id stOffers (stTakes c)) (HT.when _ (fun _ => ?_) (fun h l s hs => ⟨hs.steady, by rw [stTakes, h]; rfl⟩)) fun _ => ?_
  · exact HT.waitRO (J := fun _ => True) _ (fun l s hs => ⟨hs.steady, trivial⟩) (fun l s hs h => absurd h hs.2)
      (fun l s h _ _ ht => ⟨h, by rw [stTakes, Except.ok.inj ht, Bool.or_true]⟩) (fun l s e _ _ h => by cases h)
  refine HT.bind (S := fun _ => SetUp stOffers (stTakes c)) (HT.awaitEdge (fun l s hs => hs.1) (fun l s i r hs _ => hs.edge i r)) fun _ => ?_
  exact HT.bind (HT.write_quiet (fun _ _ h => h.calm) _ (fun _ => rfl)) fun _ => HT.pure _ (fun _ _ h => h)

/-! ### Avalon-ST packets -/

theorem HT.pkWait (c : PkCfg) {P : PkOut → Sim PkIn PkOut → Prop} (hP : ∀ l s, P l s → Steady id (Pend pkOffers (pkTakes c)) l s) :
    HT id (Pend pkOffers (pkTakes c)) P (Coro.when c.hasReady pkWaitReady) (fun _ => Acc id pkOffers (pkTakes c)) (Steady id (Pend pkOffers (pkTakes c))) :=
  HT.when _ (fun _ => HT.waitRO (J := fun _ => True) _ (fun l s hs => ⟨hP l s hs, trivial⟩) (fun l s hs h => hP l s hs)
      (fun l s h _ _ ht => ⟨h, by rw [pkTakes, Except.ok.inj ht, Bool.or_true]⟩) (fun l s e _ _ h => by cases h))
    (fun h l s hs => ⟨hP l s hs, by rw [pkTakes, h]; rfl⟩)

theorem HT.pkBeat (c : PkCfg) (channel : Option Int) (first : Bool) (string : Bytes) (v : Valids) :
    HT id (Pend pkOffers (pkTakes c)) (Calm pkOffers (pkTakes c)) (pkBeat c channel first string v) (fun _ => Acc id pkOffers (pkTakes c))
      (Steady id (Pend pkOffers (pkTakes c))) := by
  unfold CocotbBus.pkBeat
  refine HT.bind (HT.gap (fun _ _ h => h) _ (fun _ => rfl) _) fun v => ?_
  refine HT.bind (HT.write_calm (fun _ _ h => h) _) fun _ => ?_
  refine HT.bind (S := fun _ => SetUp pkOffers (pkTakes c)) ?_ fun _ => ?_
  · unfold pkChannel
    split
    · exact HT.pure _ (fun _ _ h => h)
    · split
      · exact HT.write_calm (fun _ _ h => h.calm) _
      · exact HT.ite (fun _ => HT.raise _ (fun _ _ h => h.steady)) (fun _ => HT.write_calm (fun _ _ h => h.calm) _)
  refine HT.bind (HT.write_calm (fun _ _ h => h.calm) _) fun _ => ?_
  refine HT.bind (S := fun _ => SetUp pkOffers (pkTakes c)) ?_ fun rest => ?_
  · refine HT.ite (fun _ => ?_) (fun _ => HT.pure _ (fun _ _ h => h))
    refine HT.bind (HT.write_calm (fun _ _ h => h.calm) _) fun _ => ?_
    refine HT.bind (S := fun _ => SetUp pkOffers (pkTakes c)) ?_ fun _ => HT.pure _ (fun _ _ h => h)
    unfold pkEmpty
    refine HT.ite (fun _ => ?_) (fun _ => HT.pure _ (fun _ _ h => h))
    split
    · exact HT.raise _ (fun _ _ h => h.steady)
    · exact HT.ite (fun _ => HT.write_calm (fun _ _ h => h.calm) _) (fun _ => HT.raise _ (fun _ _ h => h.steady))
  refine HT.bind (S := fun _ => SetUp pkOffers (pkTakes c)) (HT.ofExcept _ (fun _ _ _ _ h => h) (fun _ _ _ _ h => h.steady)) fun d => ?_
  refine HT.bind (HT.write_calm (fun _ _ h => h.calm) _) fun _ => ?_
  exact HT.bind (HT.pkWait c (fun _ _ h => h.steady)) fun _ => HT.pure _ (fun _ _ h => h)

theorem HT.pkSend (c : PkCfg) (string : Bytes) (sync : Bool) (channel : Option Int) (v : Valids) :
    HT id (Pend pkOffers (pkTakes c)) (Quiet pkOffers (pkTakes c)) (pkSend c string sync channel v) (fun _ => Quiet pkOffers (pkTakes c))
      (Steady id (Pend pkOffers (pkTakes c))) := by
  unfold CocotbBus.pkSend
  refine HT.bind (HT.write_quiet (fun _ _ h => h.calm) _ (fun _ => rfl)) fun _ => ?_
  refine HT.bind (S := fun _ => Quiet pkOffers (pkTakes c)) (HT.when _ (fun _ => HT.raise _ (fun _ _ h => h.steady)) (fun _ _ _ h => h)) fun _ => ?_
  refine HT.bind (S := fun _ l s => Quiet pkOffers (pkTakes c) l s ∨ Acc id pkOffers (pkTakes c) l s) ?_ fun v => ?_
  · split
    · exact HT.pure _ (fun _ _ h => .inl h)
    · refine HT.bind (HT.sync_quiet _) fun _ => ?_
      refine HT.bind (HT.weaken (HT.pkBeat c channel true string v) (fun _ _ h => h.calm) (fun _ _ _ h => h)) fun x => ?_
      refine HT.loop (Inv := fun _ => Acc id pkOffers (pkTakes c)) _ (fun x => ?_) (fun _ _ _ h => h.1) x
      split
      · exact HT.pure _ (fun _ _ h => .inr h)
      · refine HT.bind (S := fun _ => Calm pkOffers (pkTakes c)) (HT.awaitEdge (fun l s hs => hs.1) (fun l s i r hs _ => (hs.edge i r).calm)) fun _ => ?_
        exact HT.bind (HT.pkBeat c channel false _ _) fun y => HT.pure _ (fun _ _ h => h)
  refine HT.bind (S := fun _ => Calm pkOffers (pkTakes c)) (HT.awaitEdge (fun l s hs => hs.elim (·.steady) (·.1))
    (fun l s i r hs _ => hs.elim (fun h => (h.edge i r).calm) (fun h => (h.edge i r).calm))) fun _ => ?_
  exact HT.bind (HT.write_quiet (fun _ _ h => h) _ (fun _ => rfl)) fun _ => HT.pure _ (fun _ _ h => h)

theorem HT.pkWord (c : PkCfg) (w : PkWord) (hw : w.valid ≠ some false) (v : Valids) :
    HT id (Pend pkOffers (pkTakes c)) (Calm pkOffers (pkTakes c)) (pkWord c w v) (fun _ => Acc id pkOffers (pkTakes c)) (Steady id (Pend pkOffers (pkTakes c))) := by
  unfold CocotbBus.pkWord
  have hv : (w.valid.getD true && c.hasReady) = c.hasReady := by
    cases h : w.valid with
    | none => rfl
    | some b => cases b with
      | true => rfl
      | false => exact absurd h hw
  refine HT.bind (HT.gap (fun _ _ h => h) _ (fun _ => rfl) _) fun v => ?_
  dsimp only
  rw [hv]
  split
  · refine HT.bind (HT.write_calm (fun _ _ h => h) _) fun _ => ?_
    exact HT.bind (HT.pkWait c (fun _ _ h => h.steady)) fun _ => HT.pure _ (fun _ _ h => h)
  · exact HT.bind (HT.pkWait c (fun _ _ h => h.steady)) fun _ => HT.pure _ (fun _ _ h => h)

theorem HT.pkWords (c : PkCfg) (l : List PkWord) (hl : ∀ w ∈ l, w.valid ≠ some false) : ∀ v,
    HT id (Pend pkOffers (pkTakes c)) (fun l s => Quiet pkOffers (pkTakes c) l s ∨ Acc id pkOffers (pkTakes c) l s) (pkWords c l true v)
      (fun _ l s => Quiet pkOffers (pkTakes c) l s ∨ Acc id pkOffers (pkTakes c) l s) (Steady id (Pend pkOffers (pkTakes c))) := by
  induction l with
  | nil => exact fun v => HT.pure _ (fun _ _ h => h)
  | cons w r ih =>
    intro v
    refine HT.bind (S := fun _ => Calm pkOffers (pkTakes c)) (HT.awaitEdge (fun l s hs => hs.elim (·.steady) (·.1))
      (fun l s i r hs _ => hs.elim (fun h => (h.edge i r).calm) (fun h => (h.edge i r).calm))) fun _ => ?_
    refine HT.bind (HT.pkWord c w (hl w (.head _)) v) fun v => ?_
    exact HT.weaken (ih (fun w hw => hl w (.tail _ hw)) v) (fun _ _ h => .inr h) (fun _ _ _ h => h)

theorem HT.pkSendWords (c : PkCfg) (words : List PkWord) (hl : ∀ w ∈ words, w.valid ≠ some false) (sync : Bool) (v : Valids) :
    HT id (Pend pkOffers (pkTakes c)) (Quiet pkOffers (pkTakes c)) (pkSendWords c words sync v) (fun _ => Quiet pkOffers (pkTakes c))
      (Steady id (Pend pkOffers (pkTakes c))) := by
  unfold CocotbBus.pkSendWords
  refine HT.bind (S := fun _ l s => Quiet pkOffers (pkTakes c) l s ∨ Acc id pkOffers (pkTakes c) l s) ?_ fun v => ?_
  · cases words with
    | nil => exact HT.pure _ (fun _ _ h => .inl h)
    | cons w r =>
      refine HT.bind (HT.sync_quiet _) fun _ => ?_
      refine HT.bind (HT.weaken (HT.pkWord c w (hl w (.head _)) v) (fun _ _ h => h.calm) (fun _ _ _ h => h)) fun v => ?_
      exact HT.weaken (HT.pkWords c r (fun w hw => hl w (.tail _ hw)) v) (fun _ _ h => .inr h) (fun _ _ _ h => h)
  refine HT.bind (S := fun _ => Calm pkOffers (pkTakes c)) (HT.awaitEdge (fun l s hs => hs.elim (·.steady) (·.1))
    (fun l s i r hs _ => hs.elim (fun h => (h.edge i r).calm) (fun h => (h.edge i r).calm))) fun _ => ?_
  exact HT.bind (HT.write_quiet (fun _ _ h => h) _ (fun _ => rfl)) fun _ => HT.pure _ (fun _ _ h => h)

/-! ### Avalon-MM -/

theorem HT.mmAcquire {E : MmOut → Sim MmIn MmOut → Prop} {takes : MmIn → Bool} :
    HT mmPins (Pend mmOffers takes) (Quiet mmOffers takes) mmAcquire (fun _ => Quiet mmOffers takes) E := by
  unfold CocotbBus.mmAcquire
  refine HT.bind (S := fun _ => Quiet mmOffers takes) (HT.getOut (fun _ _ h => h)) fun o => ?_
  dsimp only
  refine HT.ite (fun _ => HT.bind (S := fun _ => Quiet mmOffers takes) (HT.hang (fun _ _ h => h.steady)) fun _ => ?_) (fun _ => ?_) <;>
  exact HT.setPy _ (fun _ _ h => h)

/-- the request is pending or nothing is -/
theorem HT.mmWait (c : MmCfg) {J : MmOut → Prop} {P : MmOut → Sim MmIn MmOut → Prop} (hP : ∀ l s, P l s → Steady mmPins (Pend mmOffers (mmTakes c)) l s ∧ J s.out) :
    HT mmPins (Pend mmOffers (mmTakes c)) P (Coro.when c.hasWait (Coro.waitN (fun i => i.waitrequest))) (fun _ l s => Acc mmPins mmOffers (mmTakes c) l s ∧ J s.out)
      (Steady mmPins (Pend mmOffers (mmTakes c))) :=
  HT.when _ (fun _ => HT.waitN (J := J) _ hP (fun l s h hj hz _ => ⟨⟨h, by rw [mmTakes, hz]; simp⟩, hj⟩) (fun _ _ h _ => h))
    (fun h l s hs => ⟨⟨(hP l s hs).1, by rw [mmTakes, h]; rfl⟩, (hP l s hs).2⟩)

theorem HT.mmWrite (c : MmCfg) (a v : Nat) :
    HT mmPins (Pend mmOffers (mmTakes c)) (Quiet mmOffers (mmTakes c)) (mmWrite c a v) (fun _ => Quiet mmOffers (mmTakes c)) (Steady mmPins (Pend mmOffers (mmTakes c))) := by
  have hq : ∀ o : MmOut, mmOffers o = false → (o.read == .one) = false := fun o h => (Bool.or_eq_false_iff.1 h).1
  unfold CocotbBus.mmWrite
  refine HT.bind (S := fun _ => Quiet mmOffers (mmTakes c)) (HT.when _ (fun _ => HT.raise _ (fun _ _ h => h.steady)) (fun _ _ _ h => h)) fun _ => ?_
  refine HT.bind HT.mmAcquire fun _ => ?_
  refine HT.bind (S := fun _ => Quiet mmOffers (mmTakes c)) (HT.awaitEdge (fun _ _ h => h.steady) (fun _ _ i r h _ => h.edge i r)) fun _ => ?_
  refine HT.bind (S := fun _ l s => SetUp mmOffers (mmTakes c) l s ∧ (s.out.read == .one) = false) (HT.writeInt _ _ _
    (fun _ l s hs hp => ⟨⟨hs.1, hp⟩, hq _ hs.2⟩) (fun l s hs _ => hs.steady)) fun _ => ?_
  refine HT.bind (S := fun _ l s => SetUp mmOffers (mmTakes c) l s ∧ (s.out.read == .one) = false) (HT.writeInt _ _ _
    (fun _ l s hs hp => ⟨⟨hs.1.1, hp⟩, hs.2⟩) (fun l s hs _ => hs.1.steady)) fun _ => ?_
  refine HT.bind (S := fun _ l s => SetUp mmOffers (mmTakes c) l s ∧ (s.out.read == .one) = false) (HT.write _
    (fun l s hs hp => ⟨⟨hs.1.1, hp⟩, hs.2⟩) (fun l s hs _ => hs.1.steady)) fun _ => ?_
  refine HT.bind (S := fun _ l s => SetUp mmOffers (mmTakes c) l s ∧ (s.out.read == .one) = false) (HT.write _
    (fun l s hs hp => ⟨⟨hs.1.1, hp⟩, hs.2⟩) (fun l s hs _ => hs.1.steady)) fun _ => ?_
  refine HT.bind (HT.mmWait c (J := fun o => (o.read == .one) = false) (fun l s hs => ⟨hs.1.steady, hs.2⟩)) fun _ => ?_
  refine HT.bind (S := fun _ l s => SetUp mmOffers (mmTakes c) l s ∧ (s.out.read == .one) = false) (HT.awaitEdge (fun l s hs => hs.1.1)
    (fun l s i r hs _ => ⟨hs.1.edge i r, hs.2⟩)) fun _ => ?_
  refine HT.bind (S := fun _ => Quiet mmOffers (mmTakes c)) (HT.write _ (fun l s hs hp => ⟨hs.1.1, by rw [mmOffers, hs.2]; rfl⟩) (fun l s hs _ => hs.1.steady)) fun _ => ?_
  refine HT.bind (S := fun _ => Quiet mmOffers (mmTakes c)) (HT.write _ (fun l s hs hp => hs) (fun l s hs _ => hs.steady)) fun _ => ?_
  refine HT.bind (S := fun _ => Quiet mmOffers (mmTakes c)) (HT.write _ (fun l s hs hp => hs) (fun l s hs _ => hs.steady)) fun _ => ?_
  exact HT.setPy _ (fun _ _ h => h)

theorem HT.mmRead (c : MmCfg) (a : Nat) (sync : Bool) :
    HT mmPins (Pend mmOffers (mmTakes c)) (Quiet mmOffers (mmTakes c)) (mmRead c a sync) (fun _ => Quiet mmOffers (mmTakes c)) (Steady mmPins (Pend mmOffers (mmTakes c))) := by
  have hq : ∀ o : MmOut, mmOffers o = false → (o.write == .one) = false := fun o h => (Bool.or_eq_false_iff.1 h).2
  unfold CocotbBus.mmRead
  refine HT.bind (S := fun _ => Quiet mmOffers (mmTakes c)) (HT.when _ (fun _ => HT.raise _ (fun _ _ h => h.steady)) (fun _ _ _ h => h)) fun _ => ?_
  refine HT.bind HT.mmAcquire fun _ => ?_
  refine HT.bind (HT.sync_quiet _) fun _ => ?_
  refine HT.bind (S := fun _ l s => SetUp mmOffers (mmTakes c) l s ∧ (s.out.write == .one) = false) (HT.writeInt _ _ _
    (fun _ l s hs hp => ⟨⟨hs.1, hp⟩, hq _ hs.2⟩) (fun l s hs _ => hs.steady)) fun _ => ?_
  refine HT.bind (S := fun _ l s => SetUp mmOffers (mmTakes c) l s ∧ (s.out.write == .one) = false) (HT.write _
    (fun l s hs hp => ⟨⟨hs.1.1, hp⟩, hs.2⟩) (fun l s hs _ => hs.1.steady)) fun _ => ?_
  refine HT.bind (S := fun _ l s => SetUp mmOffers (mmTakes c) l s ∧ (s.out.write == .one) = false) (HT.write _
    (fun l s hs hp => ⟨⟨hs.1.1, hp⟩, hs.2⟩) (fun l s hs _ => hs.1.steady)) fun _ => ?_
  refine HT.bind (HT.mmWait c (J := fun o => (o.write == .one) = false) (fun l s hs => ⟨hs.1.steady, hs.2⟩)) fun _ => ?_
  refine HT.bind (S := fun _ l s => SetUp mmOffers (mmTakes c) l s ∧ (s.out.write == .one) = false) (HT.awaitEdge (fun l s hs => hs.1.1)
    (fun l s i r hs _ => ⟨hs.1.edge i r, hs.2⟩)) fun _ => ?_
  refine HT.bind (S := fun _ => Quiet mmOffers (mmTakes c)) (HT.write _ (fun l s hs hp => ⟨hs.1.1, by rw [mmOffers, hs.2]; rfl⟩) (fun l s hs _ => hs.1.steady)) fun _ => ?_
  refine HT.bind (S := fun _ => Quiet mmOffers (mmTakes c)) (HT.write _ (fun l s hs hp => hs) (fun l s hs _ => hs.steady)) fun _ => ?_
  have hend : HT mmPins (Pend mmOffers (mmTakes c)) (Quiet mmOffers (mmTakes c)) (do
      let i ← Coro.inp
      mmRelease
      Pure.pure i.readdata) (fun _ => Quiet mmOffers (mmTakes c)) (Steady mmPins (Pend mmOffers (mmTakes c))) := by
    refine HT.bind (S := fun _ => Quiet mmOffers (mmTakes c)) (HT.inp (fun _ _ h => h)) fun i => ?_
    exact HT.bind (S := fun _ => Quiet mmOffers (mmTakes c)) (HT.setPy _ (fun _ _ h => h)) fun _ => HT.pure _ (fun _ _ h => h)
  dsimp only
  refine HT.ite (fun _ => ?_) (fun _ => HT.bind (S := fun _ => Quiet mmOffers (mmTakes c)) (HT.readOnly _ (fun _ _ h => h) (fun _ _ h _ => h.steady)) fun _ => hend)
  refine HT.bind (S := fun _ => Quiet mmOffers (mmTakes c)) ?_ fun _ => hend
  refine HT.loop (Inv := fun _ => Quiet mmOffers (mmTakes c)) _ (fun _ => ?_) (fun _ _ _ h => h.steady) ()
  refine HT.bind (S := fun _ => Quiet mmOffers (mmTakes c)) (HT.readOnly _ (fun _ _ h => h) (fun _ _ h _ => h.steady)) fun _ => ?_
  refine HT.bind (S := fun _ => Quiet mmOffers (mmTakes c)) (HT.inp (fun _ _ h => h)) fun i => ?_
  refine HT.bind (S := fun _ => Quiet mmOffers (mmTakes c)) (HT.ofExcept _ (fun _ _ _ _ h => h) (fun _ _ _ _ h => h.steady)) fun n => ?_
  refine HT.ite (fun _ => ?_) (fun _ => HT.pure _ (fun _ _ h => h))
  exact HT.bind (S := fun _ => Quiet mmOffers (mmTakes c)) (HT.awaitEdge (fun _ _ h => h.steady) (fun _ _ i r h _ => h.edge i r)) fun _ => HT.pure _ (fun _ _ h => h)

theorem HT.mmStep (c : MmCfg) (op : MmOp) :
    HT mmPins (Pend mmOffers (mmTakes c)) (Quiet mmOffers (mmTakes c)) (mmStep c op) (fun _ => Quiet mmOffers (mmTakes c)) (Steady mmPins (Pend mmOffers (mmTakes c))) := by
  cases op with
  | write a v => exact HT.bind (HT.mmWrite c a v) fun _ => HT.pure _ (fun _ _ h => h)
  | read a => exact HT.bind (HT.mmRead c a true) fun _ => HT.pure _ (fun _ _ h => h)
  | pause n => exact HT.bind (HT.edges_quiet n) fun _ => HT.pure _ (fun _ _ h => h)

theorem mmUse_follows (c : MmCfg) (ops : List MmOp) : ∀ (o : MmOut) (s : Sim MmIn MmOut), Quiet mmOffers (mmTakes c) o s →
    Follows mmPins (Pend mmOffers (mmTakes c)) o s.prev (records (mmUse c ops s).2) := by
  suffices h : ∀ (o : MmOut) (s : Sim MmIn MmOut), Quiet mmOffers (mmTakes c) o s → Follows mmPins (Pend mmOffers (mmTakes c)) o s.prev (mmUse c ops s).2.1 ∧
      (Pend mmOffers (mmTakes c) (lastOut o (mmUse c ops s).2.1) (lastIn s.prev (mmUse c ops s).2.1) →
        mmPins (mmUse c ops s).2.2.sim.out = mmPins (lastOut o (mmUse c ops s).2.1)) from
    fun o s hs => follows_records _ _ _ _ (h o s hs).1 (h o s hs).2
  induction ops with
  | nil => exact fun o s hs => ⟨trivial, hs.steady⟩
  | cons x l ih =>
    intro o s hs
    have H := HT.mmStep c x
    have h0 := H.follows o s hs
    have h1 := H.prev o s hs
    have h2 := H.ok o s hs
    have h3 := H.err o s hs
    have h4 := H.blocked o s hs
    rw [mmUse]
    generalize CocotbBus.mmStep c x s = r at h0 h1 h2 h3 h4
    obtain ⟨u, e⟩ := r
    have h6 : e.sim.prev = lastIn s.prev u := h1
    cases e with
    | ok b s' =>
      have h5 := ih _ _ (h2 b s' rfl)
      have h6 : s'.prev = lastIn s.prev u := h1
      rw [h6] at h5
      exact ⟨follows_append _ _ _ _ h0 h5.1, by rw [lastOut_append, lastIn_append]; exact h5.2⟩
    | err b s' =>
      have h6 : s'.prev = lastIn s.prev u := h1
      have h7 := h3 b s' rfl
      refine ⟨h0, ?_⟩
      have h8 : Pend mmOffers (mmTakes c) (lastOut o u) (lastIn s.prev u) → mmPins s'.out = mmPins (lastOut o u) := by rw [← h6]; exact h7
      exact h8
    | blocked s' =>
      have h6 : s'.prev = lastIn s.prev u := h1
      have h7 := h4 s' rfl
      refine ⟨h0, ?_⟩
      have h8 : Pend mmOffers (mmTakes c) (lastOut o u) (lastIn s.prev u) → mmPins s'.out = mmPins (lastOut o u) := by rw [← h6]; exact h7
      exact h8

theorem mmUse_paced (c : MmCfg) (ops : List MmOp) : ∀ (o : MmOut) (s : Sim MmIn MmOut), Quiet mmOffers (mmTakes c) o s →
    s.cur :: s.rest = (mmUse c ops s).2.1.map Prod.snd ++ (mmUse c ops s).2.2.sim.cur :: (mmUse c ops s).2.2.sim.rest := by
  induction ops with
  | nil => exact fun o s hs => rfl
  | cons x l ih =>
    intro o s hs
    have H := HT.mmStep c x
    have h1 := H.paced o s hs
    have h2 := H.ok o s hs
    rw [mmUse]
    generalize CocotbBus.mmStep c x s = r at h1 h2
    obtain ⟨u, e⟩ := r
    cases e with
    | ok b s' =>
      have h3 : s.cur :: s.rest = u.map Prod.snd ++ s'.cur :: s'.rest := h1
      rw [h3, ih _ _ (h2 b s' rfl), List.map_append, List.append_assoc]
    | err b s' => exact h1
    | blocked s' => exact h1

/-- the records in terms of what is driven in each cycle -/
theorem records_driven (r : Res I O α) (X : List I) (h : X = r.1.map Prod.snd ++ r.2.sim.cur :: r.2.sim.rest) (n : Nat) (hn : n + 1 < X.length) :
    (records r)[n]? = (X[n]?).map (fun i => (drivenIn r n, i)) := by
  unfold records drivenIn
  by_cases hl : n < r.1.length
  · rw [List.getElem?_append_left hl, h, List.getElem?_append_left (by simpa using hl), List.getElem?_map, List.getElem?_eq_getElem hl]
    rfl
  · have hl' := Nat.le_of_not_lt hl
    rw [h, List.length_append, List.length_map] at hn
    rw [List.getElem?_append_right hl', h, List.getElem?_append_right (by simpa using hl'), List.getElem?_map, List.length_map,
      List.getElem?_dropLast, if_pos (by omega), List.getElem?_eq_none_iff.2 hl']
    rfl

/-- the inputs in the records of several tasks -/
theorem step_inputs (c : MmCfg) (cur : MmIn) (g g' : MmSys) (e : TEv) (h : g.step c e = some g') (hg : cur :: g.ins = g.trace.map Prod.snd ++ [g.cur]) :
    cur :: g'.ins = g'.trace.map Prod.snd ++ [g'.cur] := by
  have hres : ∀ (g : MmSys) (t : Nat) p ops, (g.resume t p ops).ins = g.ins ∧ (g.resume t p ops).trace = g.trace ∧ (g.resume t p ops).cur = g.cur := by
    intro g t p ops
    unfold MmSys.resume
    split <;> exact ⟨rfl, rfl, rfl⟩
  cases e with
  | run t =>
    suffices hs : g'.ins = g.ins ∧ g'.trace = g.trace ∧ g'.cur = g.cur by rw [hs.1, hs.2.1, hs.2.2]; exact hg
    simp only [MmSys.step] at h
    unfold MmSys.run at h
    split at h
    · cases h; exact ⟨rfl, rfl, rfl⟩
    · cases h; exact ⟨rfl, rfl, rfl⟩
    · split at h
      · cases h; exact ⟨rfl, rfl, rfl⟩
      · split at h
        · cases h; exact ⟨rfl, rfl, rfl⟩
        · split at h
          · cases h; exact ⟨rfl, rfl, rfl⟩
          · cases h; exact hres _ _ _ _
    · cases h; exact hres _ _ _ _
    · cases h; exact hres _ _ _ _
    · cases h
  | ro =>
    simp only [MmSys.step] at h
    split at h
    · cases h
    · cases h; exact hg
  | next =>
    simp only [MmSys.step] at h
    split at h
    · cases h
    · cases h; exact hg
  | edge i =>
    simp only [MmSys.step] at h
    split at h
    · cases h
    · cases h
      show cur :: (g.ins ++ [i]) = (g.trace ++ [(g.out, g.cur)]).map Prod.snd ++ [i]
      rw [List.map_append, ← List.cons_append, hg]
      simp

theorem steps_inputs (c : MmCfg) (cur : MmIn) (evs : List TEv) : ∀ g g' : MmSys, g.steps c evs = some g' → cur :: g.ins = g.trace.map Prod.snd ++ [g.cur] →
    cur :: g'.ins = g'.trace.map Prod.snd ++ [g'.cur] := by
  induction evs with
  | nil => intro g g' h hg; cases h; exact hg
  | cons e es ih =>
    intro g g' h hg
    rw [MmSys.steps] at h
    split at h
    · cases h
    · next g1 h1 => exact ih g1 g' h (step_inputs c cur g g1 e h1 hg)

/-! ### OPB -/

theorem HT.opbAcquire {E : OpbOut → Sim OpbIn OpbOut → Prop} :
    HT opbPins (Pend opbOffers opbTakes) (Quiet opbOffers opbTakes) opbAcquire (fun _ => Quiet opbOffers opbTakes) E := by
  unfold CocotbBus.opbAcquire
  refine HT.bind (S := fun _ => Quiet opbOffers opbTakes) (HT.getOut (fun _ _ h => h)) fun o => ?_
  dsimp only
  refine HT.ite (fun _ => HT.bind (S := fun _ => Quiet opbOffers opbTakes) (HT.hang (fun _ _ h => h.steady)) fun _ => ?_) (fun _ => ?_) <;>
  exact HT.setPy _ (fun _ _ h => h)

/-- select may only be changed while nothing is pending -/
def OpbMay (l : OpbOut) (s : Sim OpbIn OpbOut) : Prop := Steady opbPins (Pend opbOffers opbTakes) l s ∧ (Calm opbOffers opbTakes l s ∨ s.phase = .ro)

theorem SetUp.may {l : OpbOut} {s : Sim OpbIn OpbOut} (h : SetUp opbOffers opbTakes l s) : OpbMay l s := ⟨h.steady, .inl h.1⟩

theorem HT.opbWait : HT opbPins (Pend opbOffers opbTakes) OpbMay opbWait (fun _ => OpbMay) (Steady opbPins (Pend opbOffers opbTakes)) := by
  refine HT.loop (Inv := fun _ => OpbMay) _ (fun n => ?_) (fun _ _ _ h => h.1) 0
  refine HT.bind (S := fun _ => OpbMay) (HT.inp (fun _ _ h => h)) fun i => ?_
  refine HT.bind (S := fun _ => OpbMay) (HT.ofExcept _ (fun _ _ _ _ h => h) (fun _ _ _ _ h => h.1)) fun k => ?_
  refine HT.ite (fun _ => HT.pure _ (fun _ _ h => h)) (fun _ => ?_)
  refine HT.bind (S := fun _ => Steady opbPins (Pend opbOffers opbTakes)) (HT.awaitEdge (fun _ _ h => h.1) (fun _ _ _ _ _ _ _ => rfl)) fun _ => ?_
  refine HT.bind (S := fun _ => OpbMay) (HT.readOnly _ (fun _ _ h => ⟨h, .inr rfl⟩) (fun _ _ h _ => h)) fun _ => ?_
  refine HT.bind (S := fun _ => OpbMay) (HT.inp (fun _ _ h => h)) fun j => ?_
  refine HT.bind (S := fun _ => OpbMay) (HT.ofExcept _ (fun _ _ _ _ h => h) (fun _ _ _ _ h => h.1)) fun t => ?_
  exact HT.ite (fun _ => HT.raise _ (fun _ _ h => h.1)) (fun _ => HT.pure _ (fun _ _ h => h))

theorem HT.opbEnd : HT opbPins (Pend opbOffers opbTakes) OpbMay (do
    Coro.write (fun o => { o with select := .zero })
    Coro.setPy (fun o => { o with busy := false })) (fun _ => Quiet opbOffers opbTakes) (Steady opbPins (Pend opbOffers opbTakes)) := by
  refine HT.bind (S := fun _ => Quiet opbOffers opbTakes) (HT.write _ (fun l s hs hp => ⟨hs.2.resolve_right hp, rfl⟩) (fun l s hs _ => hs.1)) fun _ => ?_
  exact HT.setPy _ (fun _ _ h => h)

theorem HT.opbRead (c : OpbCfg) (a : Nat) (sync : Bool) :
    HT opbPins (Pend opbOffers opbTakes) (Quiet opbOffers opbTakes) (opbRead c a sync) (fun _ => Quiet opbOffers opbTakes) (Steady opbPins (Pend opbOffers opbTakes)) := by
  unfold CocotbBus.opbRead
  refine HT.bind HT.opbAcquire fun _ => ?_
  refine HT.bind (HT.sync_quiet _) fun _ => ?_
  refine HT.bind (HT.writeInt_calm (fun _ _ h => h.calm) _ _ _) fun _ => ?_
  refine HT.bind (HT.write_calm (fun _ _ h => h.calm) _) fun _ => ?_
  refine HT.bind (HT.write_calm (fun _ _ h => h.calm) _) fun _ => ?_
  refine HT.bind (HT.writeInt_calm (fun _ _ h => h.calm) _ _ _) fun _ => ?_
  refine HT.bind (HT.weaken HT.opbWait (fun _ _ h => h.may) (fun _ _ _ h => h)) fun _ => ?_
  refine HT.bind (S := fun _ => OpbMay) (HT.inp (fun _ _ h => h)) fun j => ?_
  refine HT.bind (S := fun _ => OpbMay) (HT.ofExcept _ (fun _ _ _ _ h => h) (fun _ _ _ _ h => h.1)) fun d => ?_
  refine HT.bind (S := fun _ => Quiet opbOffers opbTakes) (HT.write _ (fun l s hs hp => ⟨hs.2.resolve_right hp, rfl⟩) (fun l s hs _ => hs.1)) fun _ => ?_
  exact HT.bind (S := fun _ => Quiet opbOffers opbTakes) (HT.setPy _ (fun _ _ h => h)) fun _ => HT.pure _ (fun _ _ h => h)

theorem HT.opbWrite (c : OpbCfg) (a v : Nat) (sync : Bool) :
    HT opbPins (Pend opbOffers opbTakes) (Quiet opbOffers opbTakes) (opbWrite c a v sync) (fun _ => Quiet opbOffers opbTakes) (Steady opbPins (Pend opbOffers opbTakes)) := by
  unfold CocotbBus.opbWrite
  refine HT.bind HT.opbAcquire fun _ => ?_
  refine HT.bind (HT.sync_quiet _) fun _ => ?_
  refine HT.bind (HT.writeInt_calm (fun _ _ h => h.calm) _ _ _) fun _ => ?_
  refine HT.bind (HT.write_calm (fun _ _ h => h.calm) _) fun _ => ?_
  refine HT.bind (HT.write_calm (fun _ _ h => h.calm) _) fun _ => ?_
  refine HT.bind (HT.writeInt_calm (fun _ _ h => h.calm) _ _ _) fun _ => ?_
  refine HT.bind (HT.writeInt_calm (fun _ _ h => h.calm) _ _ _) fun _ => ?_
  refine HT.bind (HT.weaken HT.opbWait (fun _ _ h => h.may) (fun _ _ _ h => h)) fun _ => ?_
  exact HT.opbEnd

theorem HT.opbUse (c : OpbCfg) (ops : List OpbOp) :
    HT opbPins (Pend opbOffers opbTakes) (Quiet opbOffers opbTakes) (opbUse c ops) (fun _ => Quiet opbOffers opbTakes) (Steady opbPins (Pend opbOffers opbTakes)) := by
  induction ops with
  | nil => exact HT.pure _ (fun _ _ h => h)
  | cons op r ih =>
    cases op with
    | read a sync => exact HT.bind (HT.opbRead c a sync) fun _ => HT.bind ih fun _ => HT.pure _ (fun _ _ h => h)
    | write a v sync => exact HT.bind (HT.opbWrite c a v sync) fun _ => ih
    | pause n => exact HT.bind (HT.edges_quiet n) fun _ => ih

end CocotbBus.Hold
