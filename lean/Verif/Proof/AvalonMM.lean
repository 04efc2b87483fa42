import Verif.Spec.AvalonMM
import Verif.Proof.WaitN
import Verif.Proof.Triple
import Verif.Proof.AvalonPkts

namespace CocotbBus
open Coro Spec
variable {I O P α β : Type}

theorem Good.setPy (f : O → O) : Good (setPy f : M I O Unit) := fun s => ⟨rfl, fun s' h => by cases h⟩
theorem Good.getOut : Good (getOut : M I O O) := fun s => ⟨rfl, fun s' h => by cases h⟩

theorem Good.waitN (f : I → Logic) : Good (waitN f : M I O Unit) := by
  intro s
  by_cases hs : s.phase = .ro
  · have : (Coro.waitN f : M I O Unit) s = ([], .err .readOnlyAwait s) := by
      unfold Coro.waitN
      rw [bind_run]
      simp [Coro.readOnly, hs]
    rw [this]
    exact ⟨rfl, fun s' h => by cases h⟩
  · obtain ⟨ws, h1, h2, h3⟩ := waitN_run f s hs
    rw [h1, List.map_map]
    have hid : (Prod.snd ∘ fun i => (s.out, i)) = (id : I → I) := rfl
    rw [hid, List.map_id]
    rcases h3 with ⟨s', a, b, c, d, e⟩ | ⟨s', a, b, c, d, e⟩ | ⟨s', a, b, c, d, e⟩
    · rw [a]; exact ⟨e, fun s' h => by cases h⟩
    · rw [a]; exact ⟨e, fun s' h => by cases h⟩
    · rw [a]; exact ⟨by rw [e]; simp [End.sim, c], fun s' h => by cases h; exact c⟩

theorem Good.writeInt (w n : Nat) (f : LogicArray → O → O) : Good (writeInt w n f : M I O Unit) :=
  Good.ite (Good.write _) (Good.raise _)

theorem bind_setPy (f : O → O) (k : Unit → M I O β) (s : Sim I O) : ((setPy f : M I O Unit) >>= k) s = k () { s with out := f s.out } :=
  bind_silent _ _ _ _ _ rfl
theorem bind_getOut (k : O → M I O β) (s : Sim I O) : ((getOut : M I O O) >>= k) s = k s.out s := bind_silent _ _ _ _ _ rfl
theorem bind_writeInt (w n : Nat) (f : LogicArray → O → O) (h : n < 2 ^ w) (k : Unit → M I O β) (s : Sim I O) (hs : s.phase ≠ .ro) :
    ((writeInt w n f : M I O Unit) >>= k) s = k () { s with out := f (natToBits w n) s.out } := by
  unfold writeInt
  rw [if_pos h, bind_write _ _ _ hs]

theorem mmAcquire_bind (k : Unit → M MmIn MmOut β) (s : Sim MmIn MmOut) (h : s.out.busy = false) :
    (mmAcquire >>= k) s = k () { s with out := { s.out with busy := true } } := by
  unfold mmAcquire
  rw [bind_assoc_run, bind_getOut, h]
  rfl

/-- the trace of an `Offers` -/
theorem Offers.request {V : Stream I O P} {p : P} {n : Nat} {r : Res I O α} {post : α → Sim I O → Prop} (h : Offers V p n r post) :
    V.Request p n r.1 r.2.isOk ∧ (∀ a s', r.2 = .ok a s' → post a s') ∧ (∀ e s', r.2 ≠ .err e s') := by
  obtain ⟨idle, held, h1, h2, h3⟩ := h
  rcases h3 with ⟨s', rfl, a, b⟩ | ⟨hl, ⟨s', rfl, a, b⟩ | ⟨q, x, s', rfl, a, b, c, d⟩⟩
  · exact ⟨⟨idle, held, h1, h2, .inl ⟨rfl, b⟩⟩, fun a s' h => (by cases h), fun e s' h => (by cases h)⟩
  · exact ⟨⟨idle, held, h1, h2, .inr ⟨rfl, hl⟩⟩, fun a s' h => (by cases h), fun e s' h => (by cases h)⟩
  · exact ⟨⟨idle, held, h1, h2, hl, q, rfl, a, b, c⟩, fun a s' h => by cases h; exact d, fun e s' h => (by cases h)⟩

/-- a silent end -/
theorem Offers.bind_silent {V : Stream I O P} {p : P} {n : Nat} {x : M I O α} {s : Sim I O} {post : α → Sim I O → Prop} (h : Offers V p n (x s) post)
    (f : α → M I O β) (g : α → Sim I O → β) (g' : α → Sim I O → Sim I O)
    (hf : ∀ a s', post a s' → f a s' = ([], .ok (g a s') (g' a s'))) (post' : β → Sim I O → Prop) (hp : ∀ a s', post a s' → post' (g a s') (g' a s')) :
    Offers V p n ((x >>= f) s) post' := by
  obtain ⟨idle, held, h1, h2, h3⟩ := h
  refine ⟨idle, held, h1, h2, ?_⟩
  rw [bind_run]
  rcases h3 with ⟨s', a, b, d⟩ | ⟨hl, ⟨s', a, b⟩ | ⟨q, x, s', a, b, c, d, e⟩⟩
  · exact .inl ⟨s', by rw [a]; rfl, b, d⟩
  · exact .inr ⟨hl, .inl ⟨s', by rw [a]; rfl, b⟩⟩
  · refine .inr ⟨hl, .inr ⟨q, g x s', g' x s', ?_, b, c, d, hp _ _ e⟩⟩
    rw [a, andThen_ok, hf _ _ e]
    simp

/-- the part of `mmWrite` after the lock -/
def mmWriteBody (c : MmCfg) (address value : Nat) : M MmIn MmOut Unit := do
  awaitEdge
  writeInt c.addrW address (fun v o => { o with address := v })
  writeInt c.dataW value (fun v o => { o with writedata := v })
  write (fun o => { o with write := .one })
  write (mmSelect c)
  when c.hasWait (waitN (fun i => i.waitrequest))
  awaitEdge
  write (fun o => { o with write := .zero })
  write (mmDeselect c)
  write (fun o => { o with writedata := List.replicate c.dataW .x })
  mmRelease

theorem mmWrite_eq (c : MmCfg) (a v : Nat) (hw : c.hasWrite = true) (s : Sim MmIn MmOut) (h : s.out.busy = false) :
    mmWrite c a v s = mmWriteBody c a v { s with out := { s.out with busy := true } } := by
  unfold mmWrite
  simp only [hw, Bool.not_true, when, Bool.false_eq_true, if_false, pure_bind]
  rw [mmAcquire_bind _ s h]
  rfl

theorem mmWriteBody_good (c : MmCfg) (a v : Nat) : Good (mmWriteBody c a v) :=
  Good.bind Good.awaitEdge fun _ => Good.bind (Good.writeInt _ _ _) fun _ => Good.bind (Good.writeInt _ _ _) fun _ => Good.bind (Good.write _) fun _ =>
    Good.bind (Good.write _) fun _ => Good.bind (Good.when _ (Good.waitN _)) fun _ => Good.bind Good.awaitEdge fun _ => Good.bind (Good.write _) fun _ =>
    Good.bind (Good.write _) fun _ => Good.bind (Good.write _) fun _ => Good.setPy _

theorem mmSelect_payload (c : MmCfg) (o : MmOut) (a : Nat) (h : o.address = natToBits c.addrW a) :
    (mmWrites c).payload (mmSelect c o) = mmReq c a o.writedata ∧ (mmReads c).payload (mmSelect c o) = mmReq c a [] := by
  unfold mmWrites mmReads mmSelect mmReq
  cases hb : c.beW with
  | none => cases hc : c.hasCs <;> simp [h]
  | some w => cases hc : c.hasCs <;> simp [h]

theorem mmWriteBody_offers (c : MmCfg) (a v : Nat) (ha : a < 2 ^ c.addrW) (hv : v < 2 ^ c.dataW) (s : Sim MmIn MmOut) (h0 : s.out.write = .zero)
    (hres : c.hasWait = true → ∀ i ∈ s.rest, Defined i.waitrequest) :
    Offers (mmWrites c) (mmReq c a (natToBits c.dataW v)) 1 (mmWriteBody c a v s)
      (fun _ s' => s'.out = mmDeselect c { (mmSelect c s.out) with write := .zero, writedata := List.replicate c.dataW .x, busy := false } ∧ s'.phase = .edge) := by
  unfold mmWriteBody
  refine offers_edge (mmWrites c) (n := 0) (by simp [mmWrites, h0]) (fun i r hr => ?_)
  rw [bind_writeInt _ _ _ ha _ _ (by simp), bind_writeInt _ _ _ hv _ _ (by simp), bind_write _ _ _ (by simp), bind_write _ _ _ (by simp)]
  have := offers_waitN (mmWrites c) c.hasWait (fun i => i.waitrequest) (fun i => rfl) (mmReq c a (natToBits c.dataW v))
    (⟨.edge, mmSelect c { s.out with address := natToBits c.addrW a, writedata := natToBits c.dataW v, write := .one }, s.cur, i, r⟩ : Sim MmIn MmOut)
    (by simp) rfl (mmSelect_payload c _ a rfl).1 (fun hw j hj => hres hw j (by rw [hr]; exact hj))
    (fun _ s' => s'.out = mmSelect c { s.out with address := natToBits c.addrW a, writedata := natToBits c.dataW v, write := .one } ∧ s'.phase = .edge)
    (fun s' h1 h2 => ⟨h1, h2⟩)
  rw [← bind_assoc_run] 
  refine Offers.bind_silent this _ (fun _ _ => ())
    (fun _ s' => { s' with out := { mmDeselect c { s'.out with write := .zero } with writedata := List.replicate c.dataW .x, busy := false } }) ?_ _ ?_
  · rintro ⟨⟩ s' ⟨h1, h2⟩
    rw [bind_write _ _ _ (by rw [h2]; decide), bind_write _ _ _ (by simp [h2]), bind_write _ _ _ (by simp [h2])]
    rfl
  · rintro ⟨⟩ s' ⟨h1, h2⟩
    refine ⟨?_, h2⟩
    simp only [h1, mmDeselect, mmSelect]

/-- body of the loop waiting for readdatavalid -/
def rdvBody : Unit → M MmIn MmOut (Unit ⊕ Unit) := fun _ => do
  readOnly
  let i ← inp
  if (← ofExcept (intOf i.readdatavalid)) = 0 then do
    awaitEdge
    pure (.inl ())
  else pure (.inr ())

theorem rdvBody_run (s : Sim MmIn MmOut) (hs : s.phase ≠ .ro) :
    rdvBody () s = match s.cur.readdatavalid with
      | .zero => (awaitEdge >>= fun _ => pure (.inl ())) { s with phase := .ro }
      | .one => ([], .ok (.inr ()) { s with phase := .ro })
      | _ => ([], .err .valueError { s with phase := .ro }) := by
  unfold rdvBody
  rw [bind_readOnly _ _ _ hs, bind_inp_ro _ _ rfl]
  simp only
  cases s.cur.readdatavalid <;> rfl

theorem rdvBody_consumes : Consumes rdvBody := by
  intro b s t b' s' h
  unfold rdvBody at h
  by_cases hs : s.phase = .ro
  · rw [bind_run] at h
    simp [readOnly, hs] at h
  · rw [bind_readOnly _ _ _ hs, bind_inp_ro _ _ rfl] at h
    simp only at h
    cases hd : s.cur.readdatavalid with
    | zero =>
      rw [hd, intOf, bind_ofExcept_ok] at h
      simp only [if_true] at h
      exact consumes_of_edge { s with phase := .ro } _ (Good.pure _) t b' s' h
    | one => rw [hd] at h; cases h
    | x => rw [hd] at h; cases h
    | z => rw [hd] at h; cases h

theorem rdvLoop_run (rest : List MmIn) : ∀ (ph : Phase) (out : MmOut) (prev cur : MmIn), ph ≠ .ro →
    let r := loop rdvBody () (⟨ph, out, prev, cur, rest⟩ : Sim MmIn MmOut)
    ∃ ws : List MmIn, r.1 = ws.map (fun i => (out, i)) ∧ (∀ i ∈ ws, i.readdatavalid = .zero) ∧
      ((∃ s', r.2 = .ok () s' ∧ s'.out = out ∧ s'.phase = .ro ∧ s'.cur.readdatavalid = .one ∧ cur :: rest = ws ++ s'.cur :: s'.rest) ∨
       (∃ s', r.2 = .err .valueError s' ∧ s'.out = out ∧ ¬ Defined s'.cur.readdatavalid ∧ cur :: rest = ws ++ s'.cur :: s'.rest) ∨
       (∃ s', r.2 = .blocked s' ∧ s'.out = out ∧ s'.rest = [] ∧ s'.cur.readdatavalid = .zero ∧ cur :: rest = ws ++ [s'.cur])) := by
  induction rest with
  | nil =>
    intro ph out prev cur hp
    simp only
    rw [loop_unfold _ rdvBody_consumes, bind_run, rdvBody_run _ hp]
    cases hd : cur.readdatavalid with
    | zero =>
      simp only
      rw [bind_awaitEdge_nil _ _ rfl]
      exact ⟨[], rfl, by simp, .inr (.inr ⟨_, rfl, rfl, rfl, hd, rfl⟩)⟩
    | one => exact ⟨[], rfl, by simp, .inl ⟨_, rfl, rfl, rfl, hd, rfl⟩⟩
    | x => exact ⟨[], rfl, by simp, .inr (.inl ⟨_, rfl, rfl, by simp [Defined, hd], rfl⟩)⟩
    | z => exact ⟨[], rfl, by simp, .inr (.inl ⟨_, rfl, rfl, by simp [Defined, hd], rfl⟩)⟩
  | cons j r ih =>
    intro ph out prev cur hp
    simp only
    rw [loop_unfold _ rdvBody_consumes, bind_run, rdvBody_run _ hp]
    cases hd : cur.readdatavalid with
    | zero =>
      simp only
      rw [bind_awaitEdge_cons _ _ j r rfl, pure_run]
      simp only [andThen_ok]
      obtain ⟨ws, h1, h2, h3⟩ := ih .edge out cur j (by decide)
      refine ⟨cur :: ws, ?_, ?_, ?_⟩
      · rw [List.map_cons, ← h1]; rfl
      · intro i hi
        rcases List.mem_cons.1 hi with rfl | hi
        · exact hd
        · exact h2 i hi
      · rcases h3 with ⟨s', a, b, c, d, e⟩ | ⟨s', a, b, c, e⟩ | ⟨s', a, b, c, d, e⟩
        · exact .inl ⟨s', a, b, c, d, by rw [e]; rfl⟩
        · exact .inr (.inl ⟨s', a, b, c, by rw [e]; rfl⟩)
        · exact .inr (.inr ⟨s', a, b, c, d, by rw [e]; rfl⟩)
    | one => exact ⟨[], rfl, by simp, .inl ⟨_, rfl, rfl, rfl, hd, rfl⟩⟩
    | x => exact ⟨[], rfl, by simp, .inr (.inl ⟨_, rfl, rfl, by simp [Defined, hd], rfl⟩)⟩
    | z => exact ⟨[], rfl, by simp, .inr (.inl ⟨_, rfl, rfl, by simp [Defined, hd], rfl⟩)⟩

/-- the request part of `mmRead`, after the lock -/
def mmReadReq (c : MmCfg) (address : Nat) (sync : Bool) : M MmIn MmOut Unit := do
  when sync awaitEdge
  writeInt c.addrW address (fun v o => { o with address := v })
  write (fun o => { o with read := .one })
  write (mmSelect c)
  when c.hasWait (waitN (fun i => i.waitrequest))
  awaitEdge
  write (fun o => { o with read := .zero })
  write (mmDeselect c)

/-- the data part of `mmRead` -/
def mmReadData (c : MmCfg) : M MmIn MmOut LogicArray := do
  (if c.hasRdv then loop rdvBody () else readOnly)
  let i ← inp
  mmRelease
  pure i.readdata

theorem mmRead_eq (c : MmCfg) (a : Nat) (sync : Bool) (hr : c.hasRead = true) (s : Sim MmIn MmOut) (h : s.out.busy = false) :
    mmRead c a sync s = (mmReadReq c a sync >>= fun _ => mmReadData c) { s with out := { s.out with busy := true } } := by
  unfold mmRead
  simp only [hr, Bool.not_true, Coro.when, Bool.false_eq_true, if_false, pure_bind]
  rw [mmAcquire_bind _ s h]
  unfold mmReadReq mmReadData
  simp only [bind_assoc]
  cases c.hasRdv <;> rfl

theorem mmReadReq_good (c : MmCfg) (a : Nat) (sync : Bool) : Good (mmReadReq c a sync) :=
  Good.bind (Good.when _ Good.awaitEdge) fun _ => Good.bind (Good.writeInt _ _ _) fun _ => Good.bind (Good.write _) fun _ =>
    Good.bind (Good.write _) fun _ => Good.bind (Good.when _ (Good.waitN _)) fun _ => Good.bind Good.awaitEdge fun _ => Good.bind (Good.write _) fun _ =>
    Good.write _

theorem mmReadReq_offers (c : MmCfg) (a : Nat) (sync : Bool) (ha : a < 2 ^ c.addrW) (s : Sim MmIn MmOut) (h0 : s.out.read = .zero)
    (hs : sync = true ∨ s.phase ≠ .ro) (hres : c.hasWait = true → ∀ i ∈ s.cur :: s.rest, Defined i.waitrequest) :
    Offers (mmReads c) (mmReq c a []) (if sync then 1 else 0) (mmReadReq c a sync s)
      (fun _ s' => s'.phase = .edge ∧ s'.out.read = .zero ∧ s'.out.busy = s.out.busy) := by
  have main : ∀ t : Sim MmIn MmOut, t.phase ≠ .ro → t.out = s.out → (∀ i ∈ t.cur :: t.rest, i ∈ s.cur :: s.rest) →
      Offers (mmReads c) (mmReq c a []) 0 ((do
        writeInt c.addrW a (fun v o => { o with address := v })
        write (fun o => { o with read := .one })
        write (mmSelect c)
        when c.hasWait (waitN (fun i => i.waitrequest))
        awaitEdge
        write (fun o => { o with read := .zero })
        write (mmDeselect c) : M MmIn MmOut Unit) t)
      (fun _ s' => s'.phase = .edge ∧ s'.out.read = .zero ∧ s'.out.busy = s.out.busy) := by
    intro t ht hto hin
    rw [bind_writeInt _ _ _ ha _ _ ht, bind_write _ _ _ (by exact ht), bind_write _ _ _ (by exact ht)]
    have := offers_waitN (mmReads c) c.hasWait (fun i => i.waitrequest) (fun i => rfl) (mmReq c a [])
      (⟨t.phase, mmSelect c { t.out with address := natToBits c.addrW a, read := .one }, t.prev, t.cur, t.rest⟩ : Sim MmIn MmOut)
      ht rfl (mmSelect_payload c _ a rfl).2 (fun hw j hj => hres hw j (hin j hj))
      (fun _ s' => s'.out.busy = s.out.busy ∧ s'.phase = .edge)
      (fun s' h1 h2 => ⟨by rw [h1, hto]; rfl, h2⟩)
    rw [← bind_assoc_run]
    refine Offers.bind_silent this _ (fun _ _ => ()) (fun _ s' => { s' with out := mmDeselect c { s'.out with read := .zero } }) ?_ _ ?_
    · rintro ⟨⟩ s' ⟨h1, h2⟩
      rw [bind_write _ _ _ (by rw [h2]; decide), write_ok _ _ (by simp [h2])]
    · rintro ⟨⟩ s' ⟨h1, h2⟩
      exact ⟨h2, rfl, h1⟩
  unfold mmReadReq
  cases sync with
  | false =>
    simp only [Coro.when, Bool.false_eq_true, if_false, pure_bind]
    exact main s (by simpa using hs) rfl (fun i hi => hi)
  | true =>
    simp only [Coro.when, if_true]
    refine offers_edge (mmReads c) (n := 0) (by simp [mmReads, h0]) (fun i r hr => ?_)
    exact main _ (by simp) rfl (fun j hj => by rw [hr]; exact List.mem_cons_of_mem _ hj)

/-- how a sequence of two programs returns -/
theorem ok_of_bind {I O α β : Type} {x : M I O α} {f : α → M I O β} {s : Sim I O} {b : β} {s' : Sim I O} (h : ((x >>= f) s).2 = .ok b s') :
    ∃ a s1, (x s).2 = .ok a s1 ∧ (f a s1).2 = .ok b s' := by
  rw [bind_run] at h
  cases hx : x s with
  | mk t e =>
    cases e with
    | ok a s1 => rw [hx, andThen_ok] at h; exact ⟨a, s1, rfl, h⟩
    | err e s1 => rw [hx, andThen_err] at h; cases h
    | blocked s1 => rw [hx, andThen_blocked] at h; cases h

theorem write_out {I O : Type} (f : O → O) (s s' : Sim I O) (a : Unit) (h : ((write f : M I O Unit) s).2 = .ok a s') : s'.out = f s.out := by
  unfold write at h
  split at h
  · cases h
  · cases h; rfl

end CocotbBus
