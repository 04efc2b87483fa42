import Verif.Model.AvalonST
import Verif.Model.AvalonPkts
import Verif.Model.Opb
import Verif.Proof.AxiUse
import Verif.Proof.Cancel
import Verif.Proof.XgmiiDriver

/-! # What a transfer that returns leaves on the bus -/

namespace CocotbBus
open Spec Coro
variable {I O P α β : Type}

/-- Whenever the coroutine returns, the outputs are such. -/
def Leaves (Q : O → Prop) (x : M I O α) : Prop := ∀ s a s', (x s).2 = .ok a s' → Q s'.out

theorem Leaves.bind {Q : O → Prop} {x : M I O α} {f : α → M I O β} (h : ∀ a, Leaves Q (f a)) : Leaves Q (x >>= f) := by
  intro s b s' hb
  obtain ⟨a, s1, _, h2⟩ := ok_of_bind hb
  exact h a s1 b s' h2

theorem Leaves.bindKeeps {Q : O → Prop} {x : M I O α} {f : α → M I O β} (hx : Leaves Q x) (hf : ∀ a, Keeps Q (f a)) : Leaves Q (x >>= f) := by
  intro s b s' hb
  obtain ⟨a, s1, h1, h2⟩ := ok_of_bind hb
  have := (hf a s1 (hx s a s1 h1)).2
  rw [h2] at this
  exact this

theorem Leaves.write {Q : O → Prop} (f : O → O) (h : ∀ o, Q (f o)) : Leaves Q (write f : M I O Unit) := by
  intro s a s' hs
  unfold Coro.write at hs
  split at hs
  · cases hs
  · cases hs; exact h _

theorem Leaves.setPy {Q : O → Prop} (f : O → O) (h : ∀ o, Q (f o)) : Leaves Q (setPy f : M I O Unit) := by
  intro s a s' hs
  cases hs; exact h _

theorem Leaves.and {Q Q' : O → Prop} {x : M I O α} (h : Leaves Q x) (h' : Leaves Q' x) : Leaves (fun o => Q o ∧ Q' o) x :=
  fun s a s' hs => ⟨h s a s' hs, h' s a s' hs⟩

theorem Leaves.of_keeps_write {Q : O → Prop} {x : M I O α} {f : O → O} {k : Unit → M I O β} (h : ∀ o, Q (f o)) (hk : ∀ a, Keeps Q (k a)) :
    Leaves Q (x >>= fun _ => Coro.write f >>= k) := Leaves.bind fun _ => Leaves.bindKeeps (Leaves.write f h) hk

/-- a coroutine that never changes a part of the outputs returns with it unchanged -/
theorem keeps_same {V : Type} {g : O → V} {x : M I O α} (h : ∀ v, Keeps (fun o => g o = v) x) {s s' : Sim I O} {a : α} (hs : (x s).2 = .ok a s') : g s'.out = g s.out := by
  have := (h (g s.out) s rfl).2
  rw [hs] at this
  exact this

theorem Keeps.setPy {Q : O → Prop} (f : O → O) (hf : ∀ o, Q o → Q (f o)) : Keeps Q (setPy f : M I O Unit) := fun s h => ⟨by simp [Coro.setPy], hf _ h⟩
theorem Keeps.getOut {Q : O → Prop} : Keeps Q (getOut : M I O O) := fun s h => ⟨by simp [Coro.getOut], h⟩
theorem Keeps.hang {Q : O → Prop} : Keeps Q (hang : M I O α) := fun s h => ⟨by simp [Coro.hang], h⟩

theorem Keeps.gapM {Q : O → Prop} (lower : O → O) (hl : ∀ o, Q o → Q (lower o)) (v : Valids) : Keeps Q (gapM lower v : M I O Valids) := by
  unfold CocotbBus.gapM
  exact Keeps.ite (Keeps.bind (Keeps.write _ hl) fun _ => Keeps.bind (Keeps.edges _) fun _ => Keeps.pure _) (Keeps.pure _)

/-! ### Avalon-ST -/

theorem stSend_leaves (cfg : StCfg) (value : AvVal) (sync : Bool) (v : Valids) :
    Leaves (fun o => o = ⟨.zero, List.replicate cfg.width .x⟩) (stSend cfg value sync v) := by
  unfold stSend
  exact Leaves.bind fun _ => Leaves.bind fun _ => Leaves.bind fun _ => Leaves.bind fun _ => Leaves.bind fun _ => Leaves.bind fun _ => Leaves.bind fun _ =>
    Leaves.bind fun _ => Leaves.bindKeeps (Leaves.write _ fun _ => rfl) fun _ => Keeps.pure _

theorem pkBeat_keeps (c : PkCfg) {Q : PkOut → Prop} (hlow : ∀ o, Q o → Q (pkLower o)) (hvalid : ∀ o, Q o → Q { o with valid := .one })
    (hsop : ∀ o b, Q o → Q { o with sop := b }) (heop : ∀ o, Q o → Q { o with eop := .one }) (hdata : ∀ o d, Q o → Q { o with data := d })
    (hchan : ∀ w, c.channelW = some w → ∀ o d, Q o → Q { o with channel := d }) (hempty : c.useEmpty = true → ∀ o d, Q o → Q { o with empty := d })
    (channel : Option Int) (first : Bool) (string : Bytes) (v : Valids) : Keeps Q (pkBeat c channel first string v) := by
  unfold pkBeat
  refine Keeps.bind (Keeps.gapM _ hlow v) fun v => Keeps.bind (Keeps.write _ hvalid) fun _ => Keeps.bind ?_ fun _ => Keeps.bind (Keeps.write _ (fun o => hsop o _)) fun _ => ?_
  · unfold pkChannel
    split
    · exact Keeps.pure _
    · rename_i w hw
      split
      · exact Keeps.write _ (fun o => hchan w hw o _)
      · exact Keeps.ite (Keeps.raise _) (Keeps.write _ (fun o => hchan w hw o _))
  · refine Keeps.bind (Keeps.ite (Keeps.bind (Keeps.write _ heop) fun _ => Keeps.bind ?_ fun _ => Keeps.pure _) (Keeps.pure _)) fun rest =>
      Keeps.bind (Keeps.ofExcept _) fun d => Keeps.bind (Keeps.write _ (fun o => hdata o _)) fun _ => Keeps.bind (Keeps.when _ (Keeps.waitRO _)) fun _ => Keeps.pure _
    unfold pkEmpty
    by_cases he : c.useEmpty = true
    · rw [if_pos he]
      split
      · exact Keeps.raise _
      · exact Keeps.ite (Keeps.write _ (fun o => hempty he o _)) (Keeps.raise _)
    · rw [if_neg he]; exact Keeps.pure _

theorem pkSend_keeps (c : PkCfg) {Q : PkOut → Prop} (hdef : ∀ o, Q o → Q (pkDefaults c o)) (hclean : ∀ o, Q o → Q (pkCleanup c o))
    (hb : ∀ channel first string v, Keeps Q (pkBeat c channel first string v)) (string : Bytes) (sync : Bool) (channel : Option Int) (v : Valids) :
    Keeps Q (pkSend c string sync channel v) := by
  unfold pkSend
  refine Keeps.bind (Keeps.write _ hdef) fun _ => Keeps.bind (Keeps.when _ (Keeps.raise _)) fun _ => Keeps.bind ?_ fun _ =>
    Keeps.bind Keeps.awaitEdge fun _ => Keeps.bind (Keeps.write _ hclean) fun _ => Keeps.pure _
  split
  · exact Keeps.pure _
  · refine Keeps.bind (Keeps.when _ Keeps.awaitEdge) fun _ => Keeps.bind (hb _ _ _ _) fun x => Keeps.loop _ (fun x => ?_) _
    split
    · exact Keeps.pure _
    · exact Keeps.bind Keeps.awaitEdge fun _ => Keeps.bind (hb _ _ _ _) fun _ => Keeps.pure _

theorem pkSend_leaves (c : PkCfg) (string : Bytes) (sync : Bool) (channel : Option Int) (v : Valids) :
    Leaves (fun o => ∃ o', o = pkCleanup c o') (pkSend c string sync channel v) := by
  unfold pkSend
  exact Leaves.bind fun _ => Leaves.bind fun _ => Leaves.bind fun _ => Leaves.bind fun _ => Leaves.bindKeeps (Leaves.write _ fun o => ⟨o, rfl⟩) fun _ => Keeps.pure _

theorem pkWords_keeps (c : PkCfg) {Q : PkOut → Prop} (hlow : ∀ o, Q o → Q (pkLower o)) (hvalid : ∀ o, Q o → Q { o with valid := .one }) (l : List PkWord) :
    ∀ (sync : Bool) (v : Valids), Keeps Q (pkWords c l sync v) := by
  induction l with
  | nil => intro sync v; exact Keeps.pure _
  | cons w r ih =>
    intro sync v
    refine Keeps.bind (Keeps.when _ Keeps.awaitEdge) fun _ => Keeps.bind ?_ fun v => ih true v
    unfold pkWord
    refine Keeps.bind (Keeps.gapM _ hlow v) fun v => ?_
    simp only
    split
    · exact Keeps.bind (Keeps.write _ hvalid) fun _ => Keeps.bind (Keeps.when _ (Keeps.waitRO _)) fun _ => Keeps.pure _
    · exact Keeps.bind (Keeps.when _ (Keeps.waitRO _)) fun _ => Keeps.pure _

/-! ### Avalon-MM and OPB -/

theorem mmAcquire_keeps {Q : MmOut → Prop} (h : ∀ o b, Q o → Q { o with busy := b }) : Keeps Q mmAcquire := by
  unfold mmAcquire
  refine Keeps.bind Keeps.getOut fun o => ?_
  split
  · exact Keeps.bind Keeps.hang fun _ => Keeps.setPy _ (fun o => h o _)
  · exact Keeps.setPy _ (fun o => h o _)

theorem mmReadTail_keeps (c : MmCfg) {Q : MmOut → Prop} (h : ∀ o b, Q o → Q { o with busy := b }) : Keeps Q (do
    if c.hasRdv then
      loop (fun (_ : Unit) => do
        readOnly
        let i ← inp
        if (← ofExcept (intOf i.readdatavalid)) = 0 then do
          awaitEdge
          pure (.inl ())
        else pure (.inr ())) ()
    else readOnly
    let i ← inp
    mmRelease
    pure i.readdata : M MmIn MmOut LogicArray) := by
  simp only
  split
  · refine Keeps.bind (Keeps.loop _ (fun _ => ?_) _) fun _ => Keeps.bind Keeps.inp fun _ => Keeps.bind (Keeps.setPy _ (fun o => h o _)) fun _ => Keeps.pure _
    exact Keeps.bind (Keeps.readOnly _) fun _ => Keeps.bind Keeps.inp fun _ => Keeps.bind (Keeps.ofExcept _) fun _ =>
      Keeps.ite (Keeps.bind Keeps.awaitEdge fun _ => Keeps.pure _) (Keeps.pure _)
  · exact Keeps.bind (Keeps.readOnly _) fun _ => Keeps.bind Keeps.inp fun _ => Keeps.bind (Keeps.setPy _ (fun o => h o _)) fun _ => Keeps.pure _

theorem mmRead_leaves (c : MmCfg) (address : Nat) (sync : Bool) {Q : MmOut → Prop} (hb : ∀ o b, Q o → Q { o with busy := b })
    (h : ∀ o : MmOut, Q (mmDeselect c { o with read := .zero })) : Leaves Q (mmRead c address sync) := by
  unfold mmRead
  refine Leaves.bind fun _ => Leaves.bind fun _ => Leaves.bind fun _ => Leaves.bind fun _ => Leaves.bind fun _ => Leaves.bind fun _ => Leaves.bind fun _ => Leaves.bind fun _ => ?_
  have h2 : Leaves Q (write (fun o : MmOut => { o with read := .zero }) >>= fun _ => write (mmDeselect c) : M MmIn MmOut Unit) := by
    intro s a s' hs
    obtain ⟨_, s1, h1, h2⟩ := ok_of_bind hs
    have e1 : ∃ o : MmOut, s1.out = { o with read := .zero } := Leaves.write (Q := fun x => ∃ o : MmOut, x = { o with read := .zero }) _ (fun o => ⟨o, rfl⟩) s _ s1 h1
    obtain ⟨o, e1⟩ := e1
    unfold Coro.write at h2
    split at h2
    · cases h2
    · cases h2; show Q (mmDeselect c s1.out); rw [e1]; exact h o
  have := Leaves.bindKeeps h2 (fun _ => mmReadTail_keeps c hb)
  simpa only [bind_assoc] using this

theorem mmRead_same (c : MmCfg) (address : Nat) (sync : Bool) {Q : MmOut → Prop} (hb : ∀ o b, Q o → Q { o with busy := b })
    (ha : ∀ o v, Q o → Q { o with address := v }) (hr : ∀ o v, Q o → Q { o with read := v }) (hs : ∀ o, Q o → Q (mmSelect c o)) (hd : ∀ o, Q o → Q (mmDeselect c o)) :
    Keeps Q (mmRead c address sync) := by
  unfold mmRead
  exact Keeps.bind (Keeps.when _ (Keeps.raise _)) fun _ => Keeps.bind (mmAcquire_keeps hb) fun _ => Keeps.bind (Keeps.when _ Keeps.awaitEdge) fun _ =>
    Keeps.bind (Keeps.writeInt _ _ _ (fun v o => ha o v)) fun _ => Keeps.bind (Keeps.write _ (fun o => hr o _)) fun _ => Keeps.bind (Keeps.write _ hs) fun _ =>
    Keeps.bind (Keeps.when _ (Keeps.waitN _)) fun _ => Keeps.bind Keeps.awaitEdge fun _ => Keeps.bind (Keeps.write _ (fun o => hr o _)) fun _ =>
    Keeps.bind (Keeps.write _ hd) fun _ => mmReadTail_keeps c hb

/-- the lock is released last -/
theorem mmRead_unlocked (c : MmCfg) (address : Nat) (sync : Bool) : Leaves (fun o => o.busy = false) (mmRead c address sync) := by
  unfold mmRead
  refine Leaves.bind fun _ => Leaves.bind fun _ => Leaves.bind fun _ => Leaves.bind fun _ => Leaves.bind fun _ => Leaves.bind fun _ => Leaves.bind fun _ => Leaves.bind fun _ =>
    Leaves.bind fun _ => Leaves.bind fun _ => ?_
  simp only
  split <;> exact Leaves.bind fun _ => Leaves.bind fun _ => Leaves.bindKeeps (Leaves.setPy _ fun _ => rfl) fun _ => Keeps.pure _

theorem mmWrite_leaves (c : MmCfg) (address value : Nat) :
    Leaves (fun o => ∃ o' : MmOut, o = { mmDeselect c { o' with write := .zero } with writedata := List.replicate c.dataW .x, busy := false }) (mmWrite c address value) := by
  unfold mmWrite
  refine Leaves.bind fun _ => Leaves.bind fun _ => Leaves.bind fun _ => Leaves.bind fun _ => Leaves.bind fun _ => Leaves.bind fun _ => Leaves.bind fun _ => Leaves.bind fun _ =>
    Leaves.bind fun _ => ?_
  intro s a s' hs
  obtain ⟨_, s1, h1, hs⟩ := ok_of_bind hs
  obtain ⟨_, s2, h2, hs⟩ := ok_of_bind hs
  obtain ⟨_, s3, h3, hs⟩ := ok_of_bind hs
  have w : ∀ (f : MmOut → MmOut) (t t' : Sim MmIn MmOut) (u : Unit), (write f t : Res MmIn MmOut Unit).2 = .ok u t' → t'.out = f t.out := by
    intro f t t' u h
    unfold Coro.write at h
    split at h
    · cases h
    · cases h; rfl
  have e1 := w _ _ _ _ h1
  have e2 := w _ _ _ _ h2
  have e3 := w _ _ _ _ h3
  refine ⟨s.out, ?_⟩
  cases hs
  show { s3.out with busy := false } = _
  rw [e3, e2, e1]

theorem mmWrite_same (c : MmCfg) (address value : Nat) {Q : MmOut → Prop} (hb : ∀ o b, Q o → Q { o with busy := b })
    (ha : ∀ o v, Q o → Q { o with address := v }) (hv : ∀ o v, Q o → Q { o with writedata := v }) (hw : ∀ o v, Q o → Q { o with write := v })
    (hs : ∀ o, Q o → Q (mmSelect c o)) (hd : ∀ o, Q o → Q (mmDeselect c o)) : Keeps Q (mmWrite c address value) := by
  unfold mmWrite
  exact Keeps.bind (Keeps.when _ (Keeps.raise _)) fun _ => Keeps.bind (mmAcquire_keeps hb) fun _ => Keeps.bind Keeps.awaitEdge fun _ =>
    Keeps.bind (Keeps.writeInt _ _ _ (fun v o => ha o v)) fun _ => Keeps.bind (Keeps.writeInt _ _ _ (fun v o => hv o v)) fun _ =>
    Keeps.bind (Keeps.write _ (fun o => hw o _)) fun _ => Keeps.bind (Keeps.write _ hs) fun _ =>
    Keeps.bind (Keeps.when _ (Keeps.waitN _)) fun _ => Keeps.bind Keeps.awaitEdge fun _ => Keeps.bind (Keeps.write _ (fun o => hw o _)) fun _ =>
    Keeps.bind (Keeps.write _ hd) fun _ => Keeps.bind (Keeps.write _ (fun o => hv o _)) fun _ => Keeps.setPy _ (fun o => hb o _)

/-! ### AXI -/

theorem addrHandshake_leaves (ready : AxIn → Logic) : Leaves (fun o => o.valid = .zero) (addrHandshake ready) := by
  unfold addrHandshake
  exact Leaves.bind fun _ => Leaves.bind fun _ => Leaves.write _ fun _ => rfl

theorem sendWriteAddress_leaves (c : AxCfg) (a len : Nat) (burst : AxiBurst) (size delay : Nat) (sync : Bool) :
    Leaves (fun o => o.valid = .zero) (sendWriteAddress c a len burst size delay sync) := by
  unfold sendWriteAddress
  exact Leaves.bind fun _ => Leaves.bind fun _ => Leaves.bind fun _ => addrHandshake_leaves _

theorem sendReadAddress_leaves (c : AxCfg) (a len : Nat) (burst : AxiBurst) (size : Nat) (sync : Bool) :
    Leaves (fun o => o.valid = .zero) (sendReadAddress c a len burst size sync) := by
  unfold sendReadAddress
  exact Leaves.bind fun _ => Leaves.bind fun _ => addrHandshake_leaves _

theorem sendBeats_leaves (c : AxCfg) (delay : Nat) (beats : List (Nat × Nat)) (hne : beats ≠ []) : Leaves (fun o => o.valid = .zero) (sendBeats c delay beats) := by
  induction beats with
  | nil => exact absurd rfl hne
  | cons b r ih =>
    obtain ⟨word, strobe⟩ := b
    rw [sendBeats]
    refine Leaves.bind fun _ => Leaves.bind fun _ => Leaves.bind fun _ => Leaves.bind fun _ => Leaves.bind fun _ => Leaves.bind fun _ => ?_
    cases r with
    | nil =>
      refine Leaves.bindKeeps ?_ fun _ => Keeps.pure _
      simp only [List.isEmpty_nil, Coro.when, if_true]
      exact Leaves.write _ fun _ => rfl
    | cons b' r => exact Leaves.bind fun _ => ih (by simp)

theorem sendWriteData_idle (c : AxCfg) (a : Nat) (data : List Nat) (burst : AxiBurst) (size delay : Nat) (be : List (Option Nat)) (sync : Bool)
    (s s' : Sim AxIn WOut) (u : Unit) (h0 : s.out.valid = .zero) (h : (sendWriteData c a data burst size delay be sync s).2 = .ok u s') : s'.out.valid = .zero := by
  unfold sendWriteData at h
  obtain ⟨beats, s1, h1, h⟩ := ok_of_bind h
  obtain ⟨_, s2, h2, h⟩ := ok_of_bind h
  by_cases hb : beats = []
  · subst hb
    have k1 := keeps_same (g := fun o : WOut => o.valid) (fun v => Keeps.ofExcept _) h1
    have k2 := keeps_same (g := fun o : WOut => o.valid) (fun v => Keeps.when _ Keeps.awaitEdge) h2
    cases h
    rw [k2, k1]; exact h0
  · exact sendBeats_leaves c delay beats hb s2 _ s' h

theorem AxQuiet.write (f : O → O) : AxQuiet (write f : M I O Unit) := fun s n s' h => by unfold Coro.write at h; split at h <;> cases h
theorem AxQuiet.when (b : Bool) {x : M I O Unit} (h : AxQuiet x) : AxQuiet (when b x) := AxQuiet.ite h (AxQuiet.pure _)
theorem AxQuiet.edges (n : Nat) : AxQuiet (edges n : M I O Unit) := by
  induction n with
  | zero => exact AxQuiet.pure _
  | succ n ih => exact AxQuiet.bind AxQuiet.awaitEdge fun _ => ih
theorem AxQuiet.writeInt (w n : Nat) (f : LogicArray → O → O) : AxQuiet (writeInt w n f : M I O Unit) := by
  unfold CocotbBus.writeInt
  refine AxQuiet.ite (AxQuiet.write _) ?_
  intro s n s' h; cases h

theorem setAddr_quiet (c : AxCfg) (a len size : Nat) (burst : AxiBurst) : AxQuiet (setAddr c a len size burst) :=
  AxQuiet.bind (AxQuiet.writeInt _ _ _) fun _ => AxQuiet.bind (AxQuiet.write _) fun _ => AxQuiet.when _ (AxQuiet.bind (AxQuiet.writeInt _ _ _) fun _ =>
    AxQuiet.bind (AxQuiet.writeInt _ _ _) fun _ => AxQuiet.writeInt _ _ _)

theorem addrHandshake_quiet (ready : AxIn → Logic) : AxQuiet (addrHandshake ready) := by
  refine AxQuiet.bind (AxQuiet.bind AxQuiet.readOnly fun _ => AxQuiet.loop _ (fun _ => AxQuiet.bind AxQuiet.inp fun i => AxQuiet.bind ?_ fun b => ?_) _) fun _ =>
    AxQuiet.bind AxQuiet.awaitEdge fun _ => AxQuiet.write _
  · exact AxQuiet.ofExcept _ (fun n h => by cases h)
  · exact AxQuiet.ite (AxQuiet.pure _) (AxQuiet.bind AxQuiet.awaitEdge fun _ => AxQuiet.bind AxQuiet.readOnly fun _ => AxQuiet.pure _)

theorem sendBeats_quiet (c : AxCfg) (delay : Nat) (beats : List (Nat × Nat)) : AxQuiet (sendBeats c delay beats) := by
  induction beats with
  | nil => exact AxQuiet.pure _
  | cons b r ih =>
    obtain ⟨word, strobe⟩ := b
    rw [sendBeats]
    exact AxQuiet.bind (AxQuiet.edges _) fun _ => AxQuiet.bind (AxQuiet.write _) fun _ => AxQuiet.bind (AxQuiet.writeInt _ _ _) fun _ =>
      AxQuiet.bind (AxQuiet.writeInt _ _ _) fun _ => AxQuiet.bind (AxQuiet.when _ (AxQuiet.write _)) fun _ => AxQuiet.bind
      (AxQuiet.loop _ (fun _ => AxQuiet.bind AxQuiet.awaitEdge fun _ => AxQuiet.bind AxQuiet.inp fun _ => AxQuiet.pure _) _) fun _ =>
      AxQuiet.bind (AxQuiet.when _ (AxQuiet.write _)) fun _ => ih

theorem axiStrobes_quiet (size : Nat) : ∀ (n : Nat) (be : List (Option Nat)) (acc : List Nat) (k : Nat), axiStrobes size n be acc ≠ .error (.axiProtocol k) := by
  intro n
  induction n with
  | zero => intro be acc k h; cases be <;> cases h
  | succ n ih =>
    intro be acc k h
    cases be with
    | nil =>
      unfold axiStrobes at h
      split at h <;> cases h
    | cons b r => exact ih r _ k h

theorem combine_quiet {x : M I O Unit} {y : M I P Unit} (hx : AxQuiet x) (hy : AxQuiet y) : AxQuiet (combine x y) := by
  intro s n s' h
  unfold combine at h
  have h1 := hx ⟨s.phase, s.out.1, s.prev, s.cur, s.rest⟩
  have h2 := hy ⟨s.phase, s.out.2, s.prev, s.cur, s.rest⟩
  generalize x ⟨s.phase, s.out.1, s.prev, s.cur, s.rest⟩ = r at *
  generalize y ⟨s.phase, s.out.2, s.prev, s.cur, s.rest⟩ = r' at *
  obtain ⟨t, e⟩ := r
  obtain ⟨t', e'⟩ := r'
  cases e <;> cases e' <;> simp_all [joinEnd]

theorem axiWrite_idle (c : AxCfg) (a : Nat) (value : List Nat) (size : Option Int) (burst : AxiBurst) (be : List (Option Nat)) (al dl : Nat) (sync : Bool)
    (s s' : Sim AxIn (AddrOut × WOut)) (h0 : s.out.2.valid = .zero) (h : Ended (axiWrite c a value size burst be al dl sync s).2 s') :
    s'.out.1.valid = .zero ∧ s'.out.2.valid = .zero := by
  unfold axiWrite at h
  obtain ⟨sz, s1, h1, hh⟩ := ended_of_bind (AxQuiet.ofExcept _ (fun n hn => by
    rcases axiChecks_cases c a value.length size burst with ⟨_, e⟩ | e <;> rw [e] at hn <;> cases hn)) h
  have e1 : s1 = s := by
    unfold Coro.ofExcept at h1
    split at h1 <;> cases h1
    rfl
  subst e1
  clear h
  rw [axiWriteRun_eq] at hh
  have hq : AxQuiet (combine (sendWriteAddress c a value.length burst sz al sync) (sendWriteData c a value burst sz dl be sync)) := by
    refine combine_quiet ?_ ?_
    · exact AxQuiet.bind (AxQuiet.when _ AxQuiet.awaitEdge) fun _ => AxQuiet.bind (AxQuiet.edges _) fun _ => AxQuiet.bind (setAddr_quiet _ _ _ _ _) fun _ => addrHandshake_quiet _
    · refine AxQuiet.bind (AxQuiet.ofExcept _ fun n hn => ?_) fun beats => AxQuiet.bind (AxQuiet.when _ AxQuiet.awaitEdge) fun _ => sendBeats_quiet _ _ _
      unfold axiWriteBeats at hn
      cases hst : axiStrobes sz value.length be [] with
      | error e => rw [hst] at hn; injection hn with hn; exact axiStrobes_quiet sz value.length be [] n (by rw [hst, hn])
      | ok l => rw [hst] at hn; cases hn
  obtain ⟨u, s2, h2, h⟩ := ended_of_bind hq hh
  obtain ⟨t1, t2, g1, g2, g3⟩ := combine_ok_inv s1 s2 h2
  have k1 := sendWriteAddress_leaves c a value.length burst sz al sync _ _ _ g1
  have k2 := sendWriteData_idle c a value burst sz dl be sync _ _ _ h0 g2
  have hk : s'.out = s2.out := by
    have := (bPhase_keeps s2.out s2 rfl).2
    rcases h with ⟨_, h⟩ | ⟨_, h⟩ <;> rw [h] at this <;> exact this
  rw [hk, g3, joinSim_out]
  exact ⟨k1, k2⟩

theorem axiRead_idle (c : AxCfg) (a : Nat) (length : Int) (size : Option Int) (burst : AxiBurst) (rr sync : Bool)
    (s s' : Sim AxIn AddrOut) (h : Ended (axiRead c a length size burst rr sync s).2 s') : s'.out.valid = .zero := by
  unfold axiRead at h
  obtain ⟨sz, s1, h1, h⟩ := ended_of_bind (AxQuiet.ofExcept _ (fun n hn => by
    rcases axiChecks_cases c a length size burst with ⟨_, e⟩ | e <;> rw [e] at hn <;> cases hn)) h
  unfold axiReadRun at h
  obtain ⟨u, s2, h2, h⟩ := ended_of_bind (AxQuiet.bind (AxQuiet.when _ AxQuiet.awaitEdge) fun _ => AxQuiet.bind (setAddr_quiet _ _ _ _ _) fun _ => addrHandshake_quiet _) h
  have k := sendReadAddress_leaves c a length.toNat burst sz sync _ _ _ h2
  have hk : Keeps (fun x => x.valid = .zero) (do
      let st ← loop (rBody c sz burst) ⟨[], [], a % c.dataBytes / sz * sz⟩
      awaitEdge
      ofExcept (axiFinish a length.toNat sz burst rr st) : M AxIn AddrOut (List LogicArray ⊕ List (LogicArray × Nat))) := by
    refine Keeps.bind (Keeps.loop _ (fun st => ?_) _) fun _ => Keeps.bind Keeps.awaitEdge fun _ => Keeps.ofExcept _
    refine Keeps.bind (Keeps.readOnly _) (fun _ => Keeps.bind Keeps.inp (fun i => ?_))
    refine Keeps.ite (Keeps.bind (Keeps.ofExcept _) (fun _ => Keeps.bind (Keeps.ofExcept _) (fun _ => ?_)))
      (Keeps.bind Keeps.awaitEdge (fun _ => Keeps.pure _))
    exact Keeps.ite (Keeps.pure _) (Keeps.bind Keeps.awaitEdge (fun _ => Keeps.pure _))
  have := (hk s2 k).2
  rcases h with ⟨_, h⟩ | ⟨_, h⟩ <;> rw [h] at this <;> exact this

end CocotbBus
