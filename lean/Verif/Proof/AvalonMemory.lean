import Verif.Proof.MemBytes
import Verif.Proof.AvalonMM
import Mathlib.Data.List.Induction

/-! # `AvalonMemory` without bursts -/

namespace CocotbBus
open Spec Coro

/-- the pins showing a response -/
def respBits (c : MemCfg) : MemResp → LogicArray
  | .unknown => List.replicate c.width .x
  | .value n => natToBits c.width n

def RespFits (c : MemCfg) : MemResp → Prop
  | .unknown => True
  | .value n => n < 2 ^ c.width

theorem memRespBits_ok (c : MemCfg) (h1 : c.width ≠ 1) (r : MemResp) (h : RespFits c r) : ∃ v, memRespBits c r = .ok v ∧ v.bits = respBits c r := by
  cases r with
  | unknown => exact ⟨.array (List.replicate c.width .x), by simp [memRespBits, createBinaryStr, h1], rfl⟩
  | value n => exact ⟨.array (natToBits c.width n), by simp only [RespFits] at h; simp [memRespBits, createBinaryInt, h1, h], rfl⟩

def memPop (c : MemCfg) (o : MemOut) : MemOut :=
  match o.responses.head? with
  | some (some r) => { o with responses := o.responses.tail, readdata := respBits c r, readdatavalid := if c.hasRdv then .one else o.readdatavalid }
  | _ => { o with responses := o.responses.tail, readdatavalid := if c.hasRdv then .zero else o.readdatavalid }

theorem memDoResponse_run (c : MemCfg) (h1 : c.width ≠ 1) (s : Sim MemIn MemOut) (hs : s.phase ≠ .ro)
    (hf : ∀ r, s.out.responses.head? = some (some r) → RespFits c r) :
    memDoResponse c s = ([], .ok () { s with out := memPop c s.out }) := by
  unfold memDoResponse memPop
  rw [bind_getOut, bind_setPy]
  cases hh : s.out.responses.head? with
  | none =>
    simp only
    cases c.hasRdv <;> simp [Coro.when, pure_run, write_ok, hs]
  | some q =>
    cases q with
    | none =>
      simp only
      cases c.hasRdv <;> simp [Coro.when, pure_run, write_ok, hs]
    | some r =>
      simp only
      obtain ⟨v, hv, hb⟩ := memRespBits_ok c h1 r (hf r hh)
      rw [hv, bind_ofExcept_ok, bind_write _ _ _ (by exact hs), hb]
      cases c.hasRdv <;> simp [Coro.when, pure_run, write_ok, hs]

/-! ### no piece loses a cycle -/

theorem memDraw_good (rand : Nat → Nat) : Good (memDraw rand) :=
  Good.bind Good.getOut fun _ => Good.bind (Good.setPy _) fun _ => Good.pure _

theorem memRandint_good (rand : Nat → Nat) (a b : Nat) : Good (memRandint rand a b) :=
  Good.bind (memDraw_good rand) fun _ => Good.ite (Good.raise _) (Good.pure _)

theorem memDoResponse_good (c : MemCfg) : Good (memDoResponse c) := by
  refine Good.bind Good.getOut fun o => Good.bind (Good.setPy _) fun _ => ?_
  split
  · exact Good.bind (Good.ofExcept _) fun _ => Good.bind (Good.write _) fun _ => Good.when _ (Good.write _)
  · exact Good.when _ (Good.write _)

theorem memSingleRead_good (c : MemCfg) (rand : Nat → Nat) : Good (memSingleRead c rand) :=
  Good.bind (Good.bind (memRandint_good _ _ _) fun _ => Good.setPy _) fun _ => Good.bind Good.inp fun _ => Good.bind (Good.ofExcept _) fun _ => Good.setPy _

theorem memBurstWords_good (c : MemCfg) (addr n : Nat) : ∀ k, Good (memBurstWords c addr n k) := by
  induction n with
  | zero => intro k; exact Good.pure _
  | succ n ih =>
    intro k
    rw [memBurstWords]
    exact Good.bind Good.getOut fun _ => Good.bind (Good.ofExcept _) fun _ => Good.bind (Good.setPy _) fun _ => Good.bind Good.awaitEdge fun _ =>
      Good.bind (memDoResponse_good c) fun _ => ih _

theorem memBurstRead_good (c : MemCfg) : Good (memBurstRead c) :=
  Good.bind Good.inp fun _ => Good.bind (Good.ofExcept _) fun _ => Good.bind (Good.when _ (Good.raise _)) fun _ => Good.bind (Good.ofExcept _) fun _ =>
    Good.bind (Good.when _ (Good.raise _)) fun _ => Good.bind Good.nextStep fun _ => Good.bind (Good.write _) fun _ => Good.bind Good.awaitEdge fun _ =>
    Good.bind Good.awaitEdge fun _ => Good.bind (Good.write _) fun _ => Good.bind (Good.edges _) fun _ => memBurstWords_good _ _ _ _

theorem memSingleWrite_good (c : MemCfg) : Good (memSingleWrite c) := by
  refine Good.bind Good.inp fun _ => Good.bind (Good.ofExcept _) fun _ => Good.bind (Good.ofExcept _) fun _ => ?_
  split
  · exact Good.bind (Good.ofExcept _) fun _ => Good.setPy _
  · exact Good.setPy _

theorem memHold_good (n : Nat) : Good (memHold n) := by
  induction n with
  | zero => exact Good.pure _
  | succ n ih => exact Good.bind (Good.write _) fun _ => Good.bind Good.awaitEdge fun _ => ih

theorem memWaitrequest_good (c : MemCfg) (rand : Nat → Nat) : Good (memWaitrequest c rand) :=
  Good.when _ (Good.bind (memDraw_good rand) fun _ => Good.ite (Good.bind (memRandint_good _ _ _) fun _ => Good.bind (memHold_good _) fun _ => Good.write _)
    (Good.bind Good.nextStep fun _ => Good.write _))

/-- body of the loop of `memWaitWrite` -/
def waitWriteBody : Unit → M MemIn MemOut (Unit ⊕ Unit) := fun _ => do
  let i ← inp
  if i.write = .zero then do
    awaitEdge
    nextStep
    pure (.inl ())
  else pure (.inr ())

theorem waitWriteBody_good (b : Unit) : Good (waitWriteBody b) :=
  Good.bind Good.inp fun _ => Good.ite (Good.bind Good.awaitEdge fun _ => Good.bind Good.nextStep fun _ => Good.pure _) (Good.pure _)

theorem waitWriteBody_consumes : Consumes waitWriteBody := by
  intro b s t b' s' h
  unfold waitWriteBody at h
  obtain ⟨i, hinp⟩ : ∃ i, (inp : M MemIn MemOut MemIn) s = ([], .ok i s) := ⟨_, rfl⟩
  rw [bind_silent _ _ _ _ _ hinp] at h
  by_cases hi : i.write = .zero
  · rw [if_pos hi] at h
    exact consumes_of_edge s _ (Good.bind Good.nextStep fun _ => Good.pure _) t b' s' h
  · rw [if_neg hi] at h
    cases h

theorem memWaitWrite_good : Good memWaitWrite :=
  Good.bind Good.inp fun _ => Good.ite (Good.bind Good.nextStep fun _ => Good.loop waitWriteBody waitWriteBody_consumes waitWriteBody_good ()) (Good.pure _)

theorem memStore_good (c : MemCfg) (a : Nat) : Good (memStore c a) :=
  Good.bind Good.nextStep fun _ => Good.bind Good.inp fun _ => Good.bind (Good.ofExcept _) fun _ => Good.setPy _

theorem memBurstBeats_good (c : MemCfg) (rand : Nat → Nat) (addr n : Nat) : ∀ k, Good (memBurstBeats c rand addr n k) := by
  induction n with
  | zero => intro k; exact Good.pure _
  | succ n ih =>
    intro k
    rw [memBurstBeats]
    exact Good.bind memWaitWrite_good fun _ => Good.bind (memStore_good _ _) fun _ => Good.bind Good.awaitEdge fun _ =>
      Good.bind (memWaitrequest_good _ _) fun _ => ih _

theorem memBurstWrite_good (c : MemCfg) (rand : Nat → Nat) : Good (memBurstWrite c rand) :=
  Good.bind (memWaitrequest_good _ _) fun _ => Good.bind Good.inp fun _ => Good.bind (Good.ofExcept _) fun _ => Good.bind (Good.when _ (Good.raise _)) fun _ =>
    Good.bind (Good.when _ (Good.raise _)) fun _ => Good.bind (Good.ofExcept _) fun _ => Good.bind (memBurstBeats_good _ _ _ _ _) fun _ => Good.when _ (Good.write _)

theorem memReadPart_good (c : MemCfg) (rand : Nat → Nat) : Good (memReadPart c rand) :=
  Good.when _ (Good.bind (Good.when _ (Good.raise _)) fun _ => Good.bind Good.inp fun _ =>
    Good.ite (Good.ite (memBurstRead_good c) (memSingleRead_good c rand)) (Good.pure _))

theorem memWritePart_good (c : MemCfg) (rand : Nat → Nat) : Good (memWritePart c rand) :=
  Good.when _ (Good.bind (Good.when _ (Good.raise _)) fun _ => Good.bind Good.inp fun _ =>
    Good.ite (Good.ite (memBurstWrite_good c rand) (memSingleWrite_good c)) (Good.pure _))

def respOf : Option Nat → MemResp
  | none => .unknown
  | some v => .value v

def memServeRead (c : MemCfg) (rand : Nat → Nat) (i : MemIn) (o : MemOut) : MemOut :=
  if memReads c i then
    { o with
      drawn := o.drawn + 1
      responses := o.responses ++ List.replicate (memLat c rand o.drawn - o.responses.length) none ++ [some (respOf (o.mem (bitsToNat i.address)))] }
  else o

def memNewWord (c : MemCfg) (i : MemIn) (old : Option Nat) : Nat :=
  if c.beW.isSome then memMerge c (bitsToNat i.writedata) (bitsToNat i.byteenable) (old.getD 0) else bitsToNat i.writedata

def memServeWrite (c : MemCfg) (i : MemIn) (o : MemOut) : MemOut :=
  if memWrites c i then { o with mem := memSet o.mem (bitsToNat i.address) (memNewWord c i (o.mem (bitsToNat i.address))) } else o

def memTick (c : MemCfg) (rand : Nat → Nat) (o : MemOut) (i : MemIn) : MemOut := memServeWrite c i (memServeRead c rand i (memPop c o))

theorem toUnsigned_ok (v : LogicArray) (h : isResolvable v = true) : toUnsigned v = .ok (bitsToNat v) := by simp [toUnsigned, h]

theorem memReadPart_run (c : MemCfg) (rand : Nat → Nat) (hc : SingleMem c) (s : Sim MemIn MemOut) (hs : s.phase = .ro) (hcl : MemClean c s.cur) :
    memReadPart c rand s = ([], .ok () { s with out := memServeRead c rand s.cur s.out }) := by
  unfold memReadPart memServeRead
  cases hr : c.hasReaddata with
  | false => simp [Coro.when, pure_run, memReads, hr]
  | true =>
    simp only [Coro.when, if_true, hc.read hr, Bool.not_true, Bool.false_eq_true, if_false, pure_bind]
    rw [bind_inp_ro _ _ hs]
    by_cases h1 : s.cur.read = .one
    · have hm : memReads c s.cur = true := by simp [memReads, hr, h1]
      have hb : c.burstRead = false := by rcases hc.noBurst with h | h <;> simp [MemCfg.burstRead, h]
      simp only [h1, hm, if_true, hb, Bool.false_eq_true, if_false]
      unfold memSingleRead memPad memRandint memDraw
      simp only [bind_assoc, pure_bind]
      rw [bind_getOut, bind_setPy]
      simp only [show ¬ c.latMax < c.latMin from Nat.not_lt.2 hc.lat, if_false, pure_bind]
      rw [bind_setPy, bind_inp_ro _ _ (by exact hs)]
      simp only
      rw [toUnsigned_ok _ (hcl.1 hm), bind_ofExcept_ok]
      simp only [setPy, memLat, respOf]
      cases s.out.mem (bitsToNat s.cur.address) <;> rfl
    · have hm : memReads c s.cur = false := by simp [memReads, h1]
      simp [h1, hm, pure_run]

theorem memWritePart_run (c : MemCfg) (rand : Nat → Nat) (hc : SingleMem c) (s : Sim MemIn MemOut) (hs : s.phase = .ro) (hcl : MemClean c s.cur) :
    memWritePart c rand s = ([], .ok () { s with out := memServeWrite c s.cur s.out }) := by
  unfold memWritePart memServeWrite
  cases hr : c.hasWritedata with
  | false => simp [Coro.when, pure_run, memWrites, hr]
  | true =>
    simp only [Coro.when, if_true, hc.write hr, Bool.not_true, Bool.false_eq_true, if_false, pure_bind]
    rw [bind_inp_ro _ _ hs]
    by_cases h1 : s.cur.write = .one
    · have hm : memWrites c s.cur = true := by simp [memWrites, hr, h1]
      obtain ⟨ha, hd, -, hb⟩ := hcl.2 hm
      have hnb : c.hasBurst = false := by
        rcases hc.noBurst with h | h
        · exact h
        · rw [hr] at h; cases h.2
      simp only [h1, hm, if_true, hnb, Bool.false_eq_true, if_false]
      unfold memSingleWrite memNewWord
      rw [bind_inp_ro _ _ hs, toUnsigned_ok _ ha, bind_ofExcept_ok, toUnsigned_ok _ hd, bind_ofExcept_ok]
      cases hbe : c.beW with
      | none => rfl
      | some w =>
        simp only
        rw [toUnsigned_ok _ (hb (by simp [hbe])), bind_ofExcept_ok]
        rfl
    · have hm : memWrites c s.cur = false := by simp [memWrites, h1]
      simp [h1, hm, pure_run]

theorem memCycle_run (c : MemCfg) (rand : Nat → Nat) (hc : SingleMem c) (s : Sim MemIn MemOut) (i : MemIn) (r : List MemIn) (hr : s.rest = i :: r)
    (hcl : MemClean c i) (hf : ∀ r, s.out.responses.head? = some (some r) → RespFits c r) :
    memCycle c rand s = ([(s.out, s.cur)], .ok () ⟨.ro, memTick c rand s.out i, s.cur, i, r⟩) := by
  unfold memCycle
  rw [bind_awaitEdge_cons _ _ i r hr]
  rw [bind_silent _ _ _ _ _ (memDoResponse_run c (by have := hc.bytes; omega) ⟨.edge, s.out, s.cur, i, r⟩ (by simp) hf), bind_readOnly _ _ _ (by simp)]
  rw [bind_silent _ _ _ _ _ (memReadPart_run c rand hc _ rfl hcl), memWritePart_run c rand hc _ rfl hcl]
  rfl

/-! ### the invariant -/

theorem readsFrom_append {α : Type} (c : MemCfg) (word : List MemIn → Nat → α) (a b : List MemIn) : ∀ past,
    readsFrom c word past (a ++ b) = readsFrom c word past a ++ readsFrom c word (past ++ a) b := by
  induction a with
  | nil => intro past; simp [readsFrom]
  | cons i r ih => intro past; simp [readsFrom, ih]

theorem readsFrom_after {α : Type} (c : MemCfg) (word : List MemIn → Nat → α) (a : List MemIn) : ∀ past,
    ∀ q ∈ readsFrom c word past a, past.length < q.1 := by
  induction a with
  | nil => intro past; simp [readsFrom]
  | cons i r ih =>
    intro past q hq
    rw [readsFrom] at hq
    rcases List.mem_append.1 hq with hq | hq
    · split at hq
      · simp at hq; subst hq; simp
      · simp at hq
    · have := ih _ q hq
      simp at this
      omega

theorem readsFrom_map {α β : Type} (c : MemCfg) (f : α → β) (word : List MemIn → Nat → α) (a : List MemIn) : ∀ past,
    readsFrom c (fun p x => f (word p x)) past a = (readsFrom c word past a).map (fun q => (q.1, f q.2)) := by
  induction a with
  | nil => intro past; rfl
  | cons i r ih =>
    intro past
    rw [readsFrom, readsFrom, ih, List.map_append]
    congr 1
    split <;> rfl

/-- time of the last response -/
def lastTime {α : Type} (last : Nat) (l : List (Nat × α)) : Nat := (l.getLast?.map Prod.fst).getD last

theorem responsesFrom_map {α β : Type} (lat : Nat → Nat) (f : α → β) (l : List (Nat × α)) : ∀ m last,
    responsesFrom lat m last (l.map (fun q => (q.1, f q.2))) = (responsesFrom lat m last l).map (fun q => (q.1, f q.2)) := by
  induction l with
  | nil => intro m last; rfl
  | cons q r ih => intro m last; simp [responsesFrom, ih]

theorem responsesFrom_length {α : Type} (lat : Nat → Nat) (l : List (Nat × α)) : ∀ m last, (responsesFrom lat m last l).length = l.length := by
  induction l with
  | nil => intro m last; rfl
  | cons q r ih => intro m last; simp [responsesFrom, ih]

theorem lastTime_cons {α : Type} (last : Nat) (q : Nat × α) (l : List (Nat × α)) : lastTime last (q :: l) = lastTime q.1 l := by
  unfold lastTime
  cases l with
  | nil => rfl
  | cons p r =>
    rw [List.getLast?_cons_cons]
    cases h : (p :: r).getLast? with
    | none => simp at h
    | some v => rfl

theorem responsesFrom_append {α : Type} (lat : Nat → Nat) (a b : List (Nat × α)) : ∀ m last,
    responsesFrom lat m last (a ++ b) = responsesFrom lat m last a ++
      responsesFrom lat (m + a.length) (lastTime last (responsesFrom lat m last a)) b := by
  induction a with
  | nil => intro m last; simp [responsesFrom, lastTime]
  | cons q r ih =>
    intro m last
    simp only [List.cons_append, responsesFrom, ih, lastTime_cons, List.length_cons]
    congr 3
    omega

theorem responsesFrom_gt {α : Type} (lat : Nat → Nat) (n : Nat) (l : List (Nat × α)) (h : ∀ q ∈ l, n < q.1) : ∀ m last,
    ∀ p ∈ responsesFrom lat m last l, n + 1 < p.1 := by
  induction l with
  | nil => intro m last; simp [responsesFrom]
  | cons q r ih =>
    intro m last p hp
    simp only [responsesFrom] at hp
    rcases List.mem_cons.1 hp with rfl | hp
    · have := h q (by simp)
      simp only
      omega
    · exact ih (fun q hq => h q (by simp [hq])) _ _ p hp

/-- the responses, as kept by the program -/
def memResps (c : MemCfg) (init : Nat → Option Nat) (lat : Nat → Nat) (cycles : List MemIn) : List (Nat × MemResp) :=
  responsesFrom lat 0 0 (readsFrom c (fun p a => respOf (if memKnown c init p a then
    some (leVal ((List.range (c.width / 8)).map (lastByte c init p a))) else none)) [] cycles)

theorem memResponses_eq (c : MemCfg) (init : Nat → Option Nat) (lat : Nat → Nat) (cycles : List MemIn) :
    memResponses c init lat cycles = (memResps c init lat cycles).map (fun q => (q.1, respBits c q.2)) := by
  unfold memResponses memResps
  rw [← responsesFrom_map, ← readsFrom_map]
  congr 2
  funext p a
  unfold wordAt respOf respBits
  split <;> rfl

/-- what holds after the cycles `h` -/
structure MemInv (c : MemCfg) (rand : Nat → Nat) (init : Nat → Option Nat) (k0 : Nat) (h : List MemIn) (o : MemOut) : Prop where
  mem : ∀ a, o.mem a = if memKnown c init h a then some (leVal ((List.range (c.width / 8)).map (lastByte c init h a))) else none
  drawn : o.drawn = k0 + (memResps c init (fun m => memLat c rand (k0 + m)) h).length
  resp : ∀ j r, (o.responses[j]?).join = some r ↔ (h.length + 1 + j, r) ∈ memResps c init (fun m => memLat c rand (k0 + m)) h
  len : h.length + o.responses.length = max h.length (lastTime 0 (memResps c init (fun m => memLat c rand (k0 + m)) h))
  pins : h ≠ [] → c.hasRdv = true → (o.readdatavalid = .one ∨ o.readdatavalid = .zero) ∧
    (o.readdatavalid = .one ↔ ∃ r, (h.length, r) ∈ memResps c init (fun m => memLat c rand (k0 + m)) h)
  data : h ≠ [] → ∀ r, (h.length, r) ∈ memResps c init (fun m => memLat c rand (k0 + m)) h → o.readdata = respBits c r

theorem memResps_snoc (c : MemCfg) (init : Nat → Option Nat) (lat : Nat → Nat) (h : List MemIn) (i : MemIn) :
    memResps c init lat (h ++ [i]) = memResps c init lat h ++ (if memReads c i then
      [(max (lastTime 0 (memResps c init lat h) + 1) (h.length + 2 + lat (memResps c init lat h).length),
        respOf (if memKnown c init h (bitsToNat i.address) then
          some (leVal ((List.range (c.width / 8)).map (lastByte c init h (bitsToNat i.address)))) else none))] else []) := by
  unfold memResps
  rw [readsFrom_append, responsesFrom_append]
  congr 1
  rw [responsesFrom_length]
  cases hm : memReads c i <;> simp [readsFrom, responsesFrom, hm]

theorem memKnown_snoc (c : MemCfg) (init : Nat → Option Nat) (h : List MemIn) (i : MemIn) (a : Nat) :
    memKnown c init (h ++ [i]) a = (memKnown c init h a || memWrites c i && bitsToNat i.address == a) := by
  simp [memKnown, Bool.or_assoc]

theorem lastByte_snoc (c : MemCfg) (init : Nat → Option Nat) (h : List MemIn) (i : MemIn) (a j : Nat) :
    lastByte c init (h ++ [i]) a j = (wroteByte c a j i).getD (lastByte c init h a j) := by
  unfold lastByte
  rw [List.reverse_append]
  simp only [List.reverse_cons, List.reverse_nil, List.nil_append, List.singleton_append, List.findSome?_cons]
  cases wroteByte c a j i <;> rfl

theorem wroteByte_none (c : MemCfg) (i : MemIn) (a j : Nat) (h : memWrites c i = false ∨ bitsToNat i.address ≠ a) : wroteByte c a j i = none := by
  unfold wroteByte
  rcases h with h | h <;> simp [h]

theorem memServeWrite_mem (c : MemCfg) (hc : SingleMem c) (init : Nat → Option Nat) (h : List MemIn) (i : MemIn) (hcl : MemClean c i) (o : MemOut)
    (hm : ∀ a, o.mem a = if memKnown c init h a then some (leVal ((List.range (c.width / 8)).map (lastByte c init h a))) else none)
    (a : Nat) : (memServeWrite c i o).mem a = if memKnown c init (h ++ [i]) a then
      some (leVal ((List.range (c.width / 8)).map (lastByte c init (h ++ [i]) a))) else none := by
  rw [memKnown_snoc]
  by_cases hw : memWrites c i = true ∧ bitsToNat i.address = a
  · obtain ⟨hw, rfl⟩ := hw
    simp only [memServeWrite, hw, if_true, memSet, Bool.true_and, beq_self_eq_true, Bool.or_true, Option.some.injEq]
    obtain ⟨-, -, hl, -⟩ := hcl.2 hw
    have hd : bitsToNat i.writedata < 256 ^ (c.width / 8) := by
      rw [pow256, ← hc.bytes, ← hl]; exact bitsToNat_lt _
    have hold : ∀ j < c.width / 8, byteOf ((o.mem (bitsToNat i.address)).getD 0) j = lastByte c init h (bitsToNat i.address) j ∨
        byteOf ((o.mem (bitsToNat i.address)).getD 0) j = 0#8 := by
      intro j hj
      rw [hm]
      split
      · left; exact byteOf_leVal _ _ _ hj
      · right; simp [byteOf]
    have hunk : memKnown c init h (bitsToNat i.address) = false → ∀ j, lastByte c init h (bitsToNat i.address) j = 0#8 := by
      intro hk j
      unfold memKnown at hk
      rw [Bool.or_eq_false_iff] at hk
      have hn : h.reverse.findSome? (wroteByte c (bitsToNat i.address) j) = none := by
        rw [List.findSome?_eq_none_iff]
        intro q hq
        have := List.any_eq_false.1 hk.2 q (by simpa using hq)
        apply wroteByte_none
        by_cases h1 : memWrites c q = true
        · right; intro h2; simp [h1, h2] at this
        · left; simpa using h1
      rw [lastByte, hn]
      cases hi : init (bitsToNat i.address) with
      | none => simp [byteOf]
      | some v => simp [hi] at hk
    apply eq_leVal
    · unfold memNewWord
      split
      · exact memMerge_lt _ _ _ _
      · exact hd
    · intro j hj
      rw [lastByte_snoc]
      unfold memNewWord wroteByte
      simp only [hw, beq_self_eq_true, Bool.true_and]
      cases hbe : c.beW with
      | none => simp
      | some w =>
        simp only [Option.isSome_some, if_true, Option.isNone_some, Bool.false_or]
        rw [byteOf_memMerge _ _ _ _ _ hj]
        split
        · rfl
        · simp only [Option.getD_none]
          rw [hm]
          split
          · exact byteOf_leVal _ _ _ hj
          · rename_i hk
            rw [hunk (by simpa using hk)]
            simp [byteOf]
  · have hnw : memWrites c i = false ∨ bitsToNat i.address ≠ a := by
      by_cases h1 : memWrites c i = true
      · right; intro h2; exact hw ⟨h1, h2⟩
      · left; simpa using h1
    have hmem : (memServeWrite c i o).mem a = o.mem a := by
      unfold memServeWrite
      split
      · rename_i h1
        rcases hnw with h2 | h2
        · rw [h1] at h2; cases h2
        · simp only [memSet]; rw [if_neg (fun h => h2 h.symm)]
      · rfl
    rw [hmem, hm a]
    have hb : (memWrites c i && bitsToNat i.address == a) = false := by
      rcases hnw with h2 | h2 <;> simp [h2]
    rw [hb, Bool.or_false]
    have : lastByte c init (h ++ [i]) a = lastByte c init h a := by
      funext j
      rw [lastByte_snoc, wroteByte_none _ _ _ _ hnw]
      rfl
    rw [this]

theorem getElem?_pad {α : Type} (l : List (Option α)) (k : Nat) (r : Option α) (j : Nat) :
    ((l ++ List.replicate (k - l.length) none ++ [r])[j]?).join = if j = max l.length k then r else (l[j]?).join := by
  have hl : (l ++ List.replicate (k - l.length) none).length = max l.length k := by simp; omega
  by_cases h1 : j = max l.length k
  · rw [if_pos h1, List.getElem?_append_right (by omega), hl, h1]
    simp
  · rw [if_neg h1]
    by_cases h2 : j < max l.length k
    · rw [List.getElem?_append_left (by omega)]
      by_cases h3 : j < l.length
      · rw [List.getElem?_append_left h3]
      · rw [List.getElem?_append_right (by omega), List.getElem?_replicate, if_pos (by omega), List.getElem?_eq_none (by omega)]
        rfl
    · rw [List.getElem?_eq_none (by simp; omega), List.getElem?_eq_none (by omega)]

theorem memInv_step (c : MemCfg) (rand : Nat → Nat) (hc : SingleMem c) (init : Nat → Option Nat) (k0 : Nat) (h : List MemIn) (o : MemOut) (i : MemIn)
    (hi : MemInv c rand init k0 h o) (hcl : MemClean c i) : MemInv c rand init k0 (h ++ [i]) (memTick c rand o i) := by
  generalize hlat : (fun m => memLat c rand (k0 + m)) = lat
  obtain ⟨h1, h2, h3, h4, h5, h6⟩ := hi
  rw [hlat] at h2 h3 h4 h5 h6
  have hpop : (memPop c o).mem = o.mem ∧ (memPop c o).drawn = o.drawn ∧ (memPop c o).responses = o.responses.tail := by
    unfold memPop; split <;> simp
  have hsr : (memServeRead c rand i (memPop c o)).mem = o.mem := by
    unfold memServeRead; split <;> exact hpop.1
  have hsw : ∀ o, (memServeWrite c i o).responses = o.responses ∧ (memServeWrite c i o).drawn = o.drawn ∧
      (memServeWrite c i o).readdata = o.readdata ∧ (memServeWrite c i o).readdatavalid = o.readdatavalid := by
    intro o; unfold memServeWrite; split <;> simp
  have hsp : (memServeRead c rand i (memPop c o)).readdata = (memPop c o).readdata ∧
      (memServeRead c rand i (memPop c o)).readdatavalid = (memPop c o).readdatavalid := by
    unfold memServeRead; split <;> simp
  have hsn := memResps_snoc c init lat h i
  have htail : ∀ j r, (o.responses.tail[j]?).join = some r ↔ (h.length + 2 + j, r) ∈ memResps c init lat h := by
    intro j r
    rw [← show h.length + 1 + (j + 1) = h.length + 2 + j by omega, ← h3 (j + 1) r, List.getElem?_tail]
  have hnew : ∀ q ∈ (if memReads c i then
      [(max (lastTime 0 (memResps c init lat h) + 1) (h.length + 2 + lat (memResps c init lat h).length),
        respOf (if memKnown c init h (bitsToNat i.address) then
          some (leVal ((List.range (c.width / 8)).map (lastByte c init h (bitsToNat i.address)))) else none))] else []), h.length + 1 < q.1 := by
    intro q hq
    split at hq
    · simp at hq; subst hq; simp only; omega
    · simp at hq
  have hmemiff : ∀ r, (h.length + 1, r) ∈ memResps c init lat (h ++ [i]) ↔ (o.responses.head?).join = some r := by
    intro r
    rw [hsn, List.mem_append, List.head?_eq_getElem?, h3 0 r]
    constructor
    · rintro (h | h)
      · exact h
      · exact absurd (hnew _ h) (by simp)
    · intro h; exact .inl h
  have hl4 : h.length + 1 + o.responses.tail.length = max (h.length + 1) (lastTime 0 (memResps c init lat h)) := by
    rw [List.length_tail]; omega
  refine ⟨?_, ?_, ?_, ?_, ?_, ?_⟩
  · intro a
    exact memServeWrite_mem c hc init h i hcl _ (fun a => by rw [hsr]; exact h1 a) a
  · rw [hlat, hsn, memTick, (hsw _).2.1, memServeRead, List.length_append]
    cases memReads c i
    · simp only [Bool.false_eq_true, if_false, List.length_nil, Nat.add_zero]
      rw [hpop.2.1, h2]
    · simp only [if_true, List.length_singleton]
      rw [hpop.2.1, h2]; omega
  · intro j r
    rw [hlat, hsn, memTick, (hsw _).1, memServeRead, List.length_append, List.length_singleton, List.mem_append]
    cases memReads c i
    · simp only [Bool.false_eq_true, if_false, List.not_mem_nil, or_false]
      rw [hpop.2.2, htail]
    · simp only [if_true, List.mem_singleton, Prod.mk.injEq]
      rw [hpop.2.2, hpop.2.1, hpop.1, h2, getElem?_pad, h1 (bitsToNat i.address), show memLat c rand (k0 + (memResps c init lat h).length) = lat (memResps c init lat h).length by rw [← hlat]]
      generalize respOf _ = w
      generalize lat (memResps c init lat h).length = l
      have hT : max (lastTime 0 (memResps c init lat h) + 1) (h.length + 2 + l) = h.length + 2 + max o.responses.tail.length l := by omega
      rw [hT]
      by_cases hj : j = max o.responses.tail.length l
      · rw [if_pos hj]
        constructor
        · intro hr
          right
          refine ⟨by omega, ?_⟩
          simpa using hr.symm
        · rintro (hr | hr)
          · exfalso
            have := (htail j r).2 (by rw [show h.length + 2 + j = h.length + 1 + 1 + j by omega]; exact hr)
            rw [List.getElem?_eq_none (by omega)] at this
            cases this
          · rw [hr.2]
      · rw [if_neg hj, htail]
        constructor
        · intro hr
          left
          rw [show h.length + 1 + 1 + j = h.length + 2 + j by omega]; exact hr
        · rintro (hr | hr)
          · rw [show h.length + 2 + j = h.length + 1 + 1 + j by omega]; exact hr
          · omega
  · rw [hlat, hsn, memTick, (hsw _).1, memServeRead, List.length_append, List.length_singleton]
    cases memReads c i
    · simp only [Bool.false_eq_true, if_false, List.append_nil]
      rw [hpop.2.2, hl4]
    · simp only [if_true]
      rw [hpop.2.2, hpop.2.1, h2, show memLat c rand (k0 + (memResps c init lat h).length) = lat (memResps c init lat h).length by rw [← hlat]]
      generalize hl : lat (memResps c init lat h).length = l
      have : ∀ (l : List (Nat × MemResp)) q, lastTime 0 (l ++ [q]) = q.1 := by intro l q; simp [lastTime]
      rw [this]
      simp only [List.length_append, List.length_replicate, List.length_singleton]
      omega
  · intro _ hrdv
    rw [hlat, memTick, (hsw _).2.2.2, hsp.2, List.length_append, List.length_singleton]
    simp only [hmemiff]
    unfold memPop
    cases hh : o.responses.head? with
    | none => simp [hrdv]
    | some q => cases q <;> simp [hrdv]
  · intro _ r hr
    rw [hlat, List.length_append, List.length_singleton, hmemiff] at hr
    rw [memTick, (hsw _).2.2.1, hsp.1]
    unfold memPop
    cases hh : o.responses.head? with
    | none => rw [hh] at hr; cases hr
    | some q =>
      rw [hh] at hr
      cases q with
      | none => cases hr
      | some r' => simp at hr; subst hr; rfl

theorem memInv_init (c : MemCfg) (rand : Nat → Nat) (init : Nat → Option Nat) (k0 : Nat) (o : MemOut) (h : MemFresh c init k0 o) :
    MemInv c rand init k0 [] o := by
  obtain ⟨h1, h2, h3, h4⟩ := h
  refine ⟨?_, ?_, ?_, ?_, by simp, by simp⟩
  · intro a
    rw [h1]
    cases hi : init a with
    | none => simp [memKnown, hi]
    | some v =>
      simp only [memKnown, hi, Option.isSome_some, Bool.true_or, if_true, Option.some.injEq]
      apply eq_leVal _ _ _ (h2 a v hi)
      intro j hj
      simp [lastByte, hi]
  · simp [h4, memResps, readsFrom, responsesFrom]
  · simp [h3, memResps, readsFrom, responsesFrom]
  · simp [h3, memResps, readsFrom, responsesFrom, lastTime]

theorem memInv_run (c : MemCfg) (rand : Nat → Nat) (hc : SingleMem c) (init : Nat → Option Nat) (k0 : Nat) (o : MemOut) (h : MemFresh c init k0 o)
    (cycles : List MemIn) (hcl : ∀ i ∈ cycles, MemClean c i) : MemInv c rand init k0 cycles (cycles.foldl (memTick c rand) o) := by
  induction cycles using List.reverseRecOn with
  | nil => exact memInv_init c rand init k0 o h
  | append_singleton l i ih =>
    rw [List.foldl_append]
    exact memInv_step c rand hc init k0 l _ i (ih (fun j hj => hcl j (by simp [hj]))) (hcl i (by simp))

theorem memInv_fits (c : MemCfg) (rand : Nat → Nat) (hc : SingleMem c) (init : Nat → Option Nat) (k0 : Nat) (h : List MemIn) (o : MemOut)
    (hi : MemInv c rand init k0 h o) : ∀ r, o.responses.head? = some (some r) → RespFits c r := by
  intro r hr
  have := (hi.resp 0 r).1 (by rw [← List.head?_eq_getElem?, hr]; rfl)
  unfold memResps at this
  have key : ∀ (l : List (Nat × MemResp)), (∀ q ∈ l, RespFits c q.2) → ∀ m last lat, ∀ q ∈ responsesFrom lat m last l, RespFits c q.2 := by
    intro l
    induction l with
    | nil => intro _ m last lat q hq; simp [responsesFrom] at hq
    | cons p r ih =>
      intro hl m last lat q hq
      simp only [responsesFrom] at hq
      rcases List.mem_cons.1 hq with rfl | hq
      · exact hl p (by simp)
      · exact ih (fun q hq => hl q (by simp [hq])) _ _ _ q hq
  have key2 : ∀ (l past : List MemIn), ∀ q ∈ readsFrom c (fun p a => respOf (if memKnown c init p a then
      some (leVal ((List.range (c.width / 8)).map (lastByte c init p a))) else none)) past l, RespFits c q.2 := by
    intro l
    induction l with
    | nil => intro past q hq; simp [readsFrom] at hq
    | cons i r ih =>
      intro past q hq
      rw [readsFrom] at hq
      rcases List.mem_append.1 hq with hq | hq
      · split at hq
        · simp only [List.mem_singleton] at hq
          subst hq
          simp only
          split
          · simp only [respOf, RespFits]
            rw [hc.bytes, ← pow256]
            rw [show 8 * (c.width / 8) / 8 = c.width / 8 by omega]
            exact leVal_range_lt _ _
          · trivial
        · simp at hq
      · exact ih _ q hq
  exact key _ (fun q hq => key2 _ _ q hq) _ _ _ _ this

/-- the whole run -/
theorem memRespond_run (c : MemCfg) (rand : Nat → Nat) (hc : SingleMem c) (init : Nat → Option Nat) (k0 : Nat) (rest : List MemIn) :
    ∀ (h : List MemIn) (ph : Phase) (out : MemOut) (prev cur : MemIn), MemInv c rand init k0 h out → (∀ i ∈ rest, MemClean c i) →
    let r := memRespond c rand (⟨ph, out, prev, cur, rest⟩ : Sim MemIn MemOut)
    (∀ n q, r.1[n]? = some q → q.1 = (rest.take n).foldl (memTick c rand) out) ∧ r.1.length = rest.length ∧
    ∃ s', r.2 = .blocked s' ∧ s'.rest = [] ∧ s'.out = rest.foldl (memTick c rand) out := by
  have hcons : Consumes (fun (_ : Unit) => (do
      memCycle c rand
      pure (.inl ()) : M MemIn MemOut (Unit ⊕ Unit))) := by
    intro b s t b' s' h
    unfold memCycle at h
    simp only [bind_assoc] at h
    exact consumes_of_edge s _ (Good.bind (memDoResponse_good c) fun _ => Good.bind (Good.readOnly _) fun _ =>
      Good.bind (memReadPart_good c rand) fun _ => Good.bind (memWritePart_good c rand) fun _ => Good.pure _) t b' s' h
  induction rest with
  | nil =>
    intro h ph out prev cur hi hcl
    simp only
    unfold memRespond
    rw [loop_unfold _ hcons]
    unfold memCycle
    simp only [bind_assoc]
    rw [bind_awaitEdge_nil _ _ rfl]
    exact ⟨by simp, rfl, _, rfl, rfl, rfl⟩
  | cons i r ih =>
    intro h ph out prev cur hi hcl
    simp only
    unfold memRespond
    rw [loop_unfold _ hcons, bind_run, bind_run, memCycle_run c rand hc _ i r rfl (hcl i (by simp)) (memInv_fits c rand hc init k0 h out hi)]
    simp only [andThen_ok, pure_run]
    obtain ⟨g1, g2, s', g3, g4, g5⟩ := ih (h ++ [i]) .ro (memTick c rand out i) cur i (memInv_step c rand hc init k0 h out i hi (hcl i (by simp)))
      (fun j hj => hcl j (by simp [hj]))
    refine ⟨?_, ?_, s', g3, g4, g5⟩
    · intro n q hq
      cases n with
      | zero => simp at hq; rw [← hq]; rfl
      | succ n => exact g1 n q hq
    · simp only [List.append_nil, List.singleton_append, List.length_cons]
      exact congrArg (· + 1) g2

end CocotbBus
