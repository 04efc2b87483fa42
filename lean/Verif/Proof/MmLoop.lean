import Verif.Proof.MmUse

/-! # A master and a memory on one bus: the joint execution -/

namespace CocotbBus
open Spec Coro

/-- the state of the memory in cycle `n` -/
def memAt (m : MemCfg) (rand : Nat → Nat) (o : MemOut) (X : List MemIn) (n : Nat) : MemOut := (X.take n).foldl (memTick m rand) o

theorem memAt_succ (m : MemCfg) (rand : Nat → Nat) (o : MemOut) (X : List MemIn) (n : Nat) (i : MemIn) (h : X[n]? = some i) :
    memAt m rand o X (n + 1) = memTick m rand (memAt m rand o X n) i := by
  unfold memAt
  rw [List.take_add_one, h, List.foldl_append]
  rfl

theorem memAt_wait (m : MemCfg) (rand : Nat → Nat) (o : MemOut) (X : List MemIn) (n : Nat) : (memAt m rand o X n).waitrequest = o.waitrequest := by
  induction n with
  | zero => simp [memAt]
  | succ n ih =>
    cases h : X[n]? with
    | none =>
      rw [← ih]
      unfold memAt
      rw [List.take_add_one, h]
      simp
    | some i => rw [memAt_succ m rand o X n i h, memTick_wait, ih]

/-- everything that is fixed in one simulation: `L` what the master sees, `X` what the memory sees -/
structure Joint (c : MmCfg) (m : MemCfg) (rand : Nat → Nat) (o : MemOut) (L : List MmIn) (X : List MemIn) (N : Nat) : Prop where
  bus : OneBus c m
  mem : SingleMem m
  lenX : X.length = N + 1
  lenL : L.length = N + 1
  see : ∀ n ≤ N, L[n]? = some (mmSees (memAt m rand o X n))
  wait : c.hasWait = true → o.waitrequest = .zero

variable {c : MmCfg} {m : MemCfg} {rand : Nat → Nat} {o : MemOut} {L : List MmIn} {X : List MemIn} {N : Nat}

/-- the memory's inputs from cycle `n + 1` on are what is driven in the cycles of `t` (after the first) and then in the current one -/
def Follows (X : List MemIn) (n : Nat) (t : List (MmOut × MmIn)) (out : MmOut) : Prop :=
  ∀ k i, k < t.length → X[n + k]? = some i → ((t.map Prod.fst ++ [out])[k + 1]?).map memSees = some i

/-- between two operations, in cycle `n` -/
structure At (c : MmCfg) (m : MemCfg) (rand : Nat → Nat) (o : MemOut) (L : List MmIn) (X : List MemIn) (n : Nat) (mem : Nat → Option Nat)
    (s : Sim MmIn MmOut) : Prop where
  here : s.cur :: s.rest = L.drop n
  ready : MmReady c s.out
  none : (memAt m rand o X n).responses = []
  mem : (memAt m rand o X n).mem = mem

theorem At.le (hj : Joint c m rand o L X N) {n : Nat} {mem : Nat → Option Nat} {s : Sim MmIn MmOut} (h : At c m rand o L X n mem s) :
    n + s.rest.length = N := by
  have := congrArg List.length h.here
  simp [hj.lenL] at this
  omega

theorem getElem?_of_lt {α : Type} (l : List α) (n : Nat) (h : n < l.length) : ∃ x, l[n]? = some x := ⟨l[n], by simp [h]⟩

theorem Joint.drop (hj : Joint c m rand o L X N) {n : Nat} {i : MmIn} {r : List MmIn} (h : i :: r = L.drop n) :
    i = mmSees (memAt m rand o X n) ∧ r = L.drop (n + 1) ∧ n ≤ N := by
  have hn : n ≤ N := by
    have := congrArg List.length h
    simp [hj.lenL] at this
    omega
  have h1 : (L.drop n)[0]? = some i := by rw [← h]; rfl
  rw [List.getElem?_drop, Nat.add_zero, hj.see n hn, Option.some.injEq] at h1
  refine ⟨h1.symm, ?_, hn⟩
  have : (L.drop n).tail = r := by rw [← h]; rfl
  rw [← this, List.tail_drop]

theorem Joint.waits (hj : Joint c m rand o L X N) (n : Nat) (hw : c.hasWait = true) : ∀ i ∈ L.drop n, i.waitrequest = .zero := by
  intro i hi
  have hi := List.mem_of_mem_drop hi
  obtain ⟨k, hk⟩ := List.getElem?_of_mem hi
  have hkl := (List.getElem?_eq_some_iff.1 hk).1
  rw [hj.see k (by rw [hj.lenL] at hkl; omega), Option.some.injEq] at hk
  rw [← hk]
  show (memAt m rand o X k).waitrequest = .zero
  rw [memAt_wait, hj.wait hw]

/-- a cycle without request -/
theorem Joint.quiet (hj : Joint c m rand o L X N) {n : Nat} (hn : n ≤ N) {out : MmOut} (hq : Quiet c out) (h : ∀ i, X[n]? = some i → memSees out = i) :
    memAt m rand o X (n + 1) = memPop m (memAt m rand o X n) := by
  obtain ⟨i, hi⟩ := getElem?_of_lt X n (by rw [hj.lenX]; omega)
  rw [memAt_succ m rand o X n i hi, memTick_idle]
  rw [← h i hi]
  exact hq.idle hj.bus

theorem wrDone_ready (c : MmCfg) (a v : Nat) (out : MmOut) (h : Quiet c out) : MmReady c (wrDone c a v out) := by
  refine ⟨⟨?_, fun _ => rfl, fun w hw => ?_⟩, rfl⟩
  · intro hr; exact h.1 hr
  · simp [wrDone, mmDeselect, hw]

theorem rdWait_quiet (c : MmCfg) (a : Nat) (out : MmOut) (h : Quiet c out) : Quiet c (rdWait c a out) := by
  refine ⟨fun _ => rfl, ?_, fun w hw => ?_⟩
  · intro hr; exact h.2.1 hr
  · simp [rdWait, mmDeselect, hw]

/-- the memory after a write request -/
theorem Joint.write (hj : Joint c m rand o L X N) {n : Nat} (hn : n ≤ N) {out : MmOut} (hq : Quiet c out) (a v : Nat) (hw : c.hasWrite = true)
    (ha : a < 2 ^ c.addrW) (hv : v < 2 ^ c.dataW) (hnone : (memAt m rand o X n).responses = [])
    (h : ∀ i, X[n]? = some i → memSees (wrReq c a v out) = i) :
    (memAt m rand o X (n + 1)).responses = [] ∧
    (memAt m rand o X (n + 1)).mem = fun b => if b = a then some v else (memAt m rand o X n).mem b := by
  obtain ⟨i, hi⟩ := getElem?_of_lt X n (by rw [hj.lenX]; omega)
  rw [memAt_succ m rand o X n i hi]
  have hi := h i hi
  generalize memAt m rand o X n = p at *
  obtain ⟨p1, p2, -, -⟩ := memPop_rest m p
  have hrd : memReads m i = false := by
    rw [← hi]
    have := (hq.idle hj.bus).1
    exact this
  have hwr : memWrites m i = true := by
    rw [← hi]
    simp [memWrites, hj.bus.writedata, hw, memSees, wrReq, mmSelect]
  have had : bitsToNat i.address = a := by
    rw [← hi]
    show bitsToNat (natToBits c.addrW a) = a
    rw [bitsToNat_natToBits, Nat.mod_eq_of_lt ha]
  have hdat : bitsToNat i.writedata = v := by
    rw [← hi]
    show bitsToNat (natToBits c.dataW v) = v
    rw [bitsToNat_natToBits, Nat.mod_eq_of_lt hv]
  have hnew : ∀ old, memNewWord m i old = v := by
    intro old
    unfold memNewWord
    split
    · rename_i hbe
      rw [hj.bus.be.1] at hbe
      obtain ⟨w, hw⟩ := Option.isSome_iff_exists.1 hbe
      rw [hdat, memMerge_all m hj.mem.bytes v _ _ (by rw [← hj.bus.width]; exact hv)]
      intro j hjw
      rw [← hi]
      show (bitsToNat (wrReq c a v out).byteenable).testBit j = true
      rw [wrReq, select_be c _ w hw, bitsToNat_ones, Nat.testBit_two_pow_sub_one]
      have := hj.bus.be.2 w hw
      simp; omega
    · exact hdat
  unfold memTick memServeRead memServeWrite
  rw [hrd, hwr]
  simp only [Bool.false_eq_true, if_false, if_true, had, hnew, p1, p2, hnone]
  exact ⟨rfl, rfl⟩

/-- the memory after a read request -/
theorem Joint.read (hj : Joint c m rand o L X N) {n : Nat} (hn : n ≤ N) {out : MmOut} (hq : Quiet c out) (a : Nat) (hr : c.hasRead = true)
    (ha : a < 2 ^ c.addrW) (hnone : (memAt m rand o X n).responses = [])
    (h : ∀ i, X[n]? = some i → memSees (rdReq c a out) = i) :
    (∃ lat ≤ m.latMax, (memAt m rand o X (n + 1)).responses = List.replicate lat none ++ [some (respOf ((memAt m rand o X n).mem a))]) ∧
    (memAt m rand o X (n + 1)).mem = (memAt m rand o X n).mem := by
  obtain ⟨i, hi⟩ := getElem?_of_lt X n (by rw [hj.lenX]; omega)
  rw [memAt_succ m rand o X n i hi]
  have hi := h i hi
  generalize memAt m rand o X n = p at *
  obtain ⟨p1, p2, -, p4⟩ := memPop_rest m p
  have hwr : memWrites m i = false := by
    rw [← hi]
    have := (hq.idle hj.bus).2
    exact this
  have hrd : memReads m i = true := by
    rw [← hi]
    simp [memReads, hj.bus.readdata, hr, memSees, rdReq, mmSelect]
  have had : bitsToNat i.address = a := by
    rw [← hi]
    show bitsToNat (natToBits c.addrW a) = a
    rw [bitsToNat_natToBits, Nat.mod_eq_of_lt ha]
  unfold memTick memServeRead memServeWrite
  rw [hrd, hwr]
  simp only [Bool.false_eq_true, if_false, if_true, had, p1, p2, p4, hnone]
  refine ⟨⟨memLat m rand p.drawn, ?_, by simp⟩, ?_⟩
  have := Nat.mod_lt (rand p.drawn) (show 0 < m.latMax - m.latMin + 1 by omega)
  have := hj.mem.lat
  · unfold memLat
    omega
  · trivial

/-- cycles without requests -/
theorem Joint.quiets (hj : Joint c m rand o L X N) (p : Nat) {out : MmOut} (hq : Quiet c out) (k : Nat) :
    p + k ≤ N + 1 → (∀ j < k, ∀ i, X[p + j]? = some i → memSees out = i) →
    (memAt m rand o X (p + k)).responses = (memAt m rand o X p).responses.drop k ∧ (memAt m rand o X (p + k)).mem = (memAt m rand o X p).mem := by
  induction k with
  | zero => intro _ _; simp
  | succ k ih =>
    intro hk h
    obtain ⟨i1, i2⟩ := ih (by omega) (fun j hj => h j (by omega))
    have := hj.quiet (n := p + k) (by omega) hq (h k (by omega))
    rw [← Nat.add_assoc, this]
    obtain ⟨q1, q2, -, -⟩ := memPop_rest m (memAt m rand o X (p + k))
    rw [q1, q2, i1, i2, List.tail_drop]
    simp

theorem memPop_data (m : MemCfg) (p : MemOut) (r : MemResp) (h : p.responses.head? = some (some r)) : (memPop m p).readdata = respBits m r := by
  unfold memPop
  rw [h]

theorem memPop_rdv (m : MemCfg) (hr : m.hasRdv = true) (p : MemOut) :
    ((memPop m p).readdatavalid = .one ∧ ∃ r, p.responses.head? = some (some r)) ∨
    ((memPop m p).readdatavalid = .zero ∧ ∀ r, p.responses.head? ≠ some (some r)) := by
  unfold memPop
  split
  · rename_i r h
    exact .inl ⟨by simp [hr], r, h⟩
  · rename_i h
    exact .inr ⟨by simp [hr], h⟩

/-- what a step does in cycle `n` and those after -/
def StepOk (c : MmCfg) (m : MemCfg) (rand : Nat → Nat) (o : MemOut) (L : List MmIn) (X : List MemIn) (N n cost : Nat) (mem' : Nat → Option Nat)
    (res : Option LogicArray) (r : Res MmIn MmOut (Option LogicArray)) : Prop :=
  match r.2 with
  | .ok d s' => d = res ∧ r.1.length ≤ cost ∧ At c m rand o L X (n + r.1.length) mem' s'
  | .blocked _ => N < n + cost
  | .err _ _ => False

theorem here_of {α : Type} (r : Res MmIn MmOut α) {s : Sim MmIn MmOut} {n : Nat} (hr : s.cur :: s.rest = r.1.map Prod.snd ++ r.2.sim.cur :: r.2.sim.rest)
    (h : s.cur :: s.rest = L.drop n) : r.2.sim.cur :: r.2.sim.rest = L.drop (n + r.1.length) := by
  rw [h] at hr
  have h2 := congrArg (List.drop r.1.length) hr
  rw [List.drop_drop] at h2
  rw [h2, List.drop_append_of_le_length (by simp), List.drop_of_length_le (by simp)]
  rfl

/-- a trace in which the same is driven all the time -/
theorem Follows.const {n : Nat} {t : List (MmOut × MmIn)} {out' out : MmOut} (h : Follows X n t out') (ht : ∀ q ∈ t, memSees q.1 = memSees out)
    (ho : memSees out' = memSees out) : ∀ j < t.length, ∀ i, X[n + j]? = some i → memSees out = i := by
  intro j hj i hi
  have := h j i hj hi
  rw [Option.map_eq_some_iff] at this
  obtain ⟨p, hp, rfl⟩ := this
  have hp := List.mem_of_getElem? hp
  rcases List.mem_append.1 hp with hp | hp
  · obtain ⟨q, hq, rfl⟩ := List.mem_map.1 hp
    rw [ht q hq]
  · rw [List.mem_singleton] at hp
    rw [hp, ho]

theorem step_pause (hj : Joint c m rand o L X N) (k : Nat) {n : Nat} {mem : Nat → Option Nat} {s : Sim MmIn MmOut} (h : At c m rand o L X n mem s)
    (hf : Follows X n (mmStep c (.pause k) s).1 (mmStep c (.pause k) s).2.sim.out) :
    StepOk c m rand o L X N n k mem none (mmStep c (.pause k) s) := by
  have hle := h.le hj
  have hgood := Good.edges (I := MmIn) (O := MmOut) k s
  have hst : mmStep c (.pause k) s = Res.andThen ((edges k : M MmIn MmOut Unit) s) (fun _ => pure none) := rfl
  rw [hst] at hf ⊢
  have hout := edges_run k s
  generalize (edges k : M MmIn MmOut Unit) s = r at *
  have hg1 := congrArg List.length hgood.1
  have hh := here_of r hgood.1 h.here
  have hrec : r.1 = (sampled k s).map (fun i => (s.out, i)) := by rw [hout]
  simp only [List.length_cons, List.length_append, List.length_map] at hg1
  have hend : r.2 = if k ≤ s.rest.length then .ok () (advance k s) else .blocked (advance k s) := by rw [hout]
  by_cases hk : k ≤ s.rest.length
  · rw [if_pos hk] at hend
    have hr : r = (r.1, .ok () (advance k s)) := by rw [← hend]
    rw [hr, andThen_ok] at hf ⊢
    simp only [pure_run, List.append_nil, End.sim] at hf ⊢
    rw [hend] at hh hg1
    simp only [End.sim, advance_rest, List.length_drop] at hh hg1
    obtain ⟨q1, q2⟩ := hj.quiets n h.ready.1 r.1.length (by omega) (hf.const (fun q hq => by
      rw [hrec] at hq
      obtain ⟨i, -, rfl⟩ := List.mem_map.1 hq
      rfl) (by rw [advance_out]))
    refine ⟨rfl, by simp only; omega, ⟨by rw [advance_rest]; exact hh, by rw [advance_out]; exact h.ready, ?_, ?_⟩⟩
    · simp only; rw [q1, h.none]; simp
    · simp only; rw [q2, h.mem]
  · rw [if_neg hk] at hend
    have hr : r = (r.1, .blocked (advance k s)) := by rw [← hend]
    rw [hr, andThen_blocked]
    show N < n + k
    omega

theorem step_write (hj : Joint c m rand o L X N) (a v : Nat) (hop : OpOk c (.write a v)) {n : Nat} {mem : Nat → Option Nat} {s : Sim MmIn MmOut}
    (h : At c m rand o L X n mem s) (hf : Follows X n (mmStep c (.write a v) s).1 (mmStep c (.write a v) s).2.sim.out) :
    StepOk c m rand o L X N n 2 (fun b => if b = a then some v else mem b) none (mmStep c (.write a v) s) := by
  have hle := h.le hj
  obtain ⟨hw, ha, hv⟩ := hop
  have hwait : c.hasWait = true → ∀ i ∈ s.rest, i.waitrequest = .zero := fun hw i hi =>
    hj.waits n hw i (by rw [← h.here]; exact List.mem_cons_of_mem _ hi)
  have hst : mmStep c (.write a v) s = Res.andThen (mmWrite c a v s) (fun _ => pure none) := rfl
  rw [hst] at hf ⊢
  rcases mmWrite_run c a v hw ha hv s h.ready.2 hwait with ⟨s', h1, h2⟩ | ⟨t, s', h1, h2⟩ | ⟨i, j, r, h1, h2⟩
  · rw [h1, andThen_blocked]
    show N < n + 2
    rw [h2] at hle
    simp at hle; omega
  · rw [h1, andThen_blocked]
    show N < n + 2
    omega
  · rw [h2, andThen_ok] at hf ⊢
    rw [h1] at hle
    simp only [List.length_cons] at hle
    simp only [pure_run, List.append_nil, End.sim] at hf ⊢
    have hX0 : ∀ i, X[n]? = some i → memSees (wrReq c a v s.out) = i := fun i hi => by
      simpa using hf 0 i (by simp) hi
    have hX1 : ∀ i, X[n + 1]? = some i → memSees (wrDone c a v s.out) = i := fun i hi => by
      simpa using hf 1 i (by simp) hi
    obtain ⟨w1, w2⟩ := hj.write (n := n) (by omega) h.ready.1 a v hw ha hv h.none hX0
    have hrdy := wrDone_ready c a v s.out h.ready.1
    have hq := hj.quiet (n := n + 1) (by omega) hrdy.1 hX1
    obtain ⟨p1, p2, -, -⟩ := memPop_rest m (memAt m rand o X (n + 1))
    refine ⟨rfl, by simp, ⟨?_, hrdy, ?_, ?_⟩⟩
    · have := h.here
      rw [h1] at this
      rw [← List.drop_drop, ← this]
      rfl
    · show (memAt m rand o X (n + 1 + 1)).responses = []
      rw [hq, p2, w1]; rfl
    · show (memAt m rand o X (n + 1 + 1)).mem = _
      rw [hq, p1, w2, h.mem]

/-- the data phase of a read, from cycle `p + 1` on, with the response on its way since cycle `p` -/
theorem readData (hj : Joint c m rand o L X N) (hd : c.hasRdv = true ∨ m.latMax = 0) {p lat : Nat} (hlat : lat ≤ m.latMax) {resp : MemResp}
    {s : Sim MmIn MmOut} (hph : s.phase = .edge) (hh : s.cur :: s.rest = L.drop (p + 1)) (hq : Quiet c s.out)
    (hresp : (memAt m rand o X p).responses = List.replicate lat none ++ [some resp])
    (hf : ∀ k i, k ≤ (mmReadData c s).1.length → X[p + k]? = some i → memSees s.out = i) :
    match (mmReadData c s).2 with
    | .ok d s' => d = respBits m resp ∧ (mmReadData c s).1.length = lat ∧ s'.out = { s.out with busy := false } ∧ s'.cur :: s'.rest = L.drop (p + 1 + lat) ∧
        (memAt m rand o X (p + 1 + lat)).responses = [] ∧ (memAt m rand o X (p + 1 + lat)).mem = (memAt m rand o X p).mem
    | .blocked _ => N < p + 1 + lat
    | .err _ _ => False := by
  have hN := (hj.drop hh).2.2
  have hNl : p + 1 + s.rest.length = N := by
    have := congrArg List.length hh
    simp [hj.lenL] at this
    omega
  -- what the memory shows while the master drives nothing
  have hshow : ∀ j, j ≤ (mmReadData c s).1.length → p + 1 + j ≤ N →
      (memAt m rand o X (p + j)).responses = (List.replicate lat none ++ [some resp]).drop j ∧
      (memAt m rand o X (p + j)).mem = (memAt m rand o X p).mem ∧ memAt m rand o X (p + j + 1) = memPop m (memAt m rand o X (p + j)) := by
    intro j hjl hjn
    obtain ⟨a1, a2⟩ := hj.quiets p hq j (by omega) (fun k hk i hi => hf k i (by omega) hi)
    exact ⟨by rw [a1, hresp], a2, hj.quiet (by omega) hq (fun i hi => hf j i hjl hi)⟩
  cases hrd : c.hasRdv with
  | false =>
    have hlat0 : lat = 0 := by
      rcases hd with hd | hd
      · rw [hrd] at hd; cases hd
      · omega
    subst hlat0
    have hdata : mmReadData c s = ([], .ok s.cur.readdata { s with phase := .ro, out := { s.out with busy := false } }) := by
      unfold mmReadData
      rw [hrd]
      simp only [Bool.false_eq_true, if_false]
      rw [bind_readOnly _ _ _ (by rw [hph]; decide), bind_inp_ro _ _ rfl]
      rfl
    rw [hdata] at hshow ⊢
    obtain ⟨b1, b2, b3⟩ := hshow 0 (by simp) (by omega)
    obtain ⟨q1, q2, -, -⟩ := memPop_rest m (memAt m rand o X p)
    simp only [Nat.add_zero, List.replicate_zero, List.nil_append, List.drop_zero] at b1 b3
    refine ⟨?_, rfl, rfl, hh, ?_, ?_⟩
    · rw [(hj.drop hh).1, b3]
      exact memPop_data m _ resp (by rw [b1]; rfl)
    · rw [Nat.add_zero, b3, q2, b1]; rfl
    · rw [Nat.add_zero, b3, q1]
  | true =>
    obtain ⟨ws, g1, g2, g3⟩ := rdvLoop_run s.rest s.phase s.out s.prev s.cur (by rw [hph]; decide)
    have hdata : mmReadData c s = (loop rdvBody () s).andThen (fun _ => do
        let i ← inp
        mmRelease
        pure i.readdata) := by
      unfold mmReadData
      rw [hrd]
      simp only [if_true]
      rw [bind_run]
    have hst : s = ⟨s.phase, s.out, s.prev, s.cur, s.rest⟩ := rfl
    rw [← hst] at g1 g3
    -- the inputs, cycle by cycle
    have hsee : ∀ (s2 : Sim MmIn MmOut), s.cur :: s.rest = ws ++ s2.cur :: s2.rest → (mmReadData c s).1.length = ws.length →
        s2.cur :: s2.rest = L.drop (p + 1 + ws.length) ∧ p + 1 + ws.length ≤ N ∧ s2.cur = mmSees (memAt m rand o X (p + 1 + ws.length)) ∧
        (s2.cur.readdatavalid = .one → ws.length = lat) ∧ Defined s2.cur.readdatavalid ∧ (s2.cur.readdatavalid = .zero → ws.length < lat) := by
      intro s2 he hlen
      have hdrop : s2.cur :: s2.rest = L.drop (p + 1 + ws.length) := by
        rw [← List.drop_drop, ← hh, he]
        simp
      obtain ⟨c1, -, c3⟩ := hj.drop hdrop
      have hrdv : ∀ j ≤ ws.length, (memAt m rand o X (p + 1 + j)).readdatavalid = if j = lat then .one else .zero := by
        intro j hjw
        obtain ⟨b1, b2, b3⟩ := hshow j (by omega) (by omega)
        rw [show p + 1 + j = p + j + 1 by omega, b3]
        have hhead : (memAt m rand o X (p + j)).responses.head? = (List.replicate lat none ++ [some resp])[j]? := by
          rw [b1, List.head?_drop]
        rcases memPop_rdv m (by rw [hj.bus.rdv]; exact hrd) (memAt m rand o X (p + j)) with ⟨r1, r, r2⟩ | ⟨r1, r2⟩
        · rw [r1, hhead] at *
          by_cases h1 : j < lat
          · rw [List.getElem?_append_left (by simpa using h1)] at r2
            simp [h1] at r2
          · rw [List.getElem?_append_right (by simp; omega)] at r2
            by_cases h2 : j = lat
            · simp [h2]
            · have : ([some resp] : List (Option MemResp))[j - lat]? = none := by
                rw [List.getElem?_eq_none_iff]; simp; omega
              simp [this] at r2
        · rw [r1]
          by_cases h2 : j = lat
          · exfalso
            apply r2 resp
            rw [hhead, h2, List.getElem?_append_right (by simp)]
            simp
          · simp [h2]
      have hwsz : ∀ j, j < ws.length → j ≠ lat := by
        intro j hjw heq
        have hz := g2 (ws[j]) (List.getElem_mem hjw)
        have : (s.cur :: s.rest)[j]? = some ws[j] := by
          rw [he, List.getElem?_append_left hjw]
          simp [hjw]
        rw [hh, List.getElem?_drop, hj.see _ (by omega), Option.some.injEq] at this
        rw [← this] at hz
        have hone := hrdv j (by omega)
        rw [if_pos heq] at hone
        simp only [mmSees] at hz
        rw [hone] at hz
        cases hz
      have hcur := hrdv ws.length (Nat.le_refl _)
      refine ⟨hdrop, c3, c1, ?_, ?_, ?_⟩
      · intro h1
        rw [c1] at h1
        simp only [mmSees] at h1
        rw [hcur] at h1
        by_cases h2 : ws.length = lat
        · exact h2
        · rw [if_neg h2] at h1; cases h1
      · rw [c1]
        simp only [mmSees]
        rw [hcur]
        split
        · exact .inr rfl
        · exact .inl rfl
      · intro h1
        rw [c1] at h1
        simp only [mmSees] at h1
        rw [hcur] at h1
        have hne : ws.length ≠ lat := by
          intro h2; rw [if_pos h2] at h1; cases h1
        rcases Nat.lt_trichotomy ws.length lat with h2 | h2 | h2
        · exact h2
        · exact absurd h2 hne
        · exact absurd rfl (hwsz lat h2)
    rcases g3 with ⟨s2, a2, b2, c2, d2, e2⟩ | ⟨s2, a2, b2, c2, e2⟩ | ⟨s2, a2, b2, c2, d2, e2⟩
    · have hl : loop rdvBody () s = (ws.map (fun i => (s.out, i)), .ok () s2) := by rw [← g1, ← a2]
      have hre : mmReadData c s = (ws.map (fun i => (s.out, i)), .ok s2.cur.readdata { s2 with out := { s2.out with busy := false } }) := by
        rw [hdata, hl, andThen_ok, bind_inp_ro _ _ c2]; simp [mmRelease, setPy, bind_run, pure_run]
      have hlen : (mmReadData c s).1.length = ws.length := by rw [hre]; simp
      obtain ⟨v1, v2, v3, v4, -, -⟩ := hsee s2 e2 hlen
      have hwl := v4 d2
      obtain ⟨b1, b2', b3⟩ := hshow lat (by omega) (by omega)
      obtain ⟨q1, q2, -, -⟩ := memPop_rest m (memAt m rand o X (p + lat))
      rw [List.drop_append_of_le_length (by simp), List.drop_of_length_le (by simp), List.nil_append] at b1
      rw [hre]
      rw [hwl] at v1 v3
      have e : p + 1 + lat = p + lat + 1 := by omega
      refine ⟨?_, by simp [hwl], by rw [b2], v1, ?_, ?_⟩
      · rw [v3, e, b3]
        exact memPop_data m _ resp (by rw [b1]; rfl)
      · rw [e, b3, q2, b1]; rfl
      · rw [e, b3, q1, b2']
    · have hl : loop rdvBody () s = (ws.map (fun i => (s.out, i)), .err .valueError s2) := by rw [← g1, ← a2]
      have hre : mmReadData c s = (ws.map (fun i => (s.out, i)), .err .valueError s2) := by rw [hdata, hl]; rfl
      have hlen : (mmReadData c s).1.length = ws.length := by rw [hre]; simp
      obtain ⟨-, -, -, -, v5, -⟩ := hsee s2 e2 hlen
      exact absurd v5 c2
    · have hl : loop rdvBody () s = (ws.map (fun i => (s.out, i)), .blocked s2) := by rw [← g1, ← a2]
      have hre : mmReadData c s = (ws.map (fun i => (s.out, i)), .blocked s2) := by rw [hdata, hl]; rfl
      have hlen : (mmReadData c s).1.length = ws.length := by rw [hre]; simp
      obtain ⟨v1, -, -, -, -, v6⟩ := hsee s2 (by rw [c2]; exact e2) hlen
      have := v6 d2
      rw [hre]
      show N < p + 1 + lat
      have hl2 := congrArg List.length e2
      simp at hl2
      omega

/-- nothing changes on the bus in the data phase -/
theorem mmReadData_const (c : MmCfg) (K : MemIn) :
    Triple (fun s : Sim MmIn MmOut => s.phase ≠ .ro ∧ memSees s.out = K) (fun q => memSees q.1 = K) (mmReadData c) (fun _ s => memSees s.out = K)
      (fun _ s => memSees s.out = K) (fun s => memSees s.out = K) := by
  unfold mmReadData
  refine Triple.bind (S := fun _ s => memSees s.out = K) ?_ fun _ => ?_
  · cases c.hasRdv with
    | false => exact Triple.readOnly (fun s hs => hs.1) (fun s hs => hs.2) true
    | true =>
      refine Triple.loop (Inv := fun _ s => s.phase ≠ .ro ∧ memSees s.out = K) _ (fun _ => ?_) (fun _ s hs => hs.2) ()
      unfold rdvBody
      refine Triple.bind (S := fun _ s => memSees s.out = K) (Triple.readOnly (fun s hs => hs.1) (fun s hs => hs.2) true) fun _ => ?_
      refine Triple.bind (S := fun _ s => memSees s.out = K) (Triple.inp (fun s hs => hs)) fun i => ?_
      refine Triple.bind (S := fun _ s => memSees s.out = K) (Triple.ofExcept _ (fun _ s _ hs => hs) (fun _ s _ hs => hs)) fun n => ?_
      refine Triple.ite (fun _ => ?_) (fun _ => Triple.pure _ (fun s hs => hs))
      refine Triple.bind (S := fun _ s => s.phase ≠ .ro ∧ memSees s.out = K) (Triple.awaitEdge (fun s hs => hs) (fun s hs _ => hs)
        (fun s i r hs _ => ⟨by simp, hs⟩)) fun _ => ?_
      exact Triple.pure _ (fun s hs => hs)
  · refine Triple.bind (S := fun _ s => memSees s.out = K) (Triple.inp (fun s hs => hs)) fun i => ?_
    exact Triple.bind (S := fun _ s => memSees s.out = K) (setPy_triple _ (fun s hs => hs)) fun _ => Triple.pure _ (fun s hs => hs)

theorem step_read (hj : Joint c m rand o L X N) (hd : c.hasRdv = true ∨ m.latMax = 0) (a : Nat) (hop : OpOk c (.read a)) {n : Nat} {mem : Nat → Option Nat}
    {s : Sim MmIn MmOut} (h : At c m rand o L X n mem s) (hf : Follows X n (mmStep c (.read a) s).1 (mmStep c (.read a) s).2.sim.out) :
    StepOk c m rand o L X N n (2 + m.latMax) mem (some (respBits m (respOf (mem a)))) (mmStep c (.read a) s) := by
  have hle := h.le hj
  obtain ⟨hr, ha⟩ := hop
  have hwait : c.hasWait = true → ∀ i ∈ s.rest, i.waitrequest = .zero := fun hw i hi =>
    hj.waits n hw i (by rw [← h.here]; exact List.mem_cons_of_mem _ hi)
  have hst : mmStep c (.read a) s = Res.andThen (mmRead c a true s) (fun d => pure (some d)) := rfl
  rw [hst] at hf ⊢
  rcases mmRead_run c a hr ha s h.ready.2 hwait with ⟨t, s', h1, h2⟩ | ⟨i, j, r, h1, h2⟩
  · rw [h1, andThen_blocked]
    show N < n + (2 + m.latMax)
    omega
  · rw [h2, andThen_ok] at hf ⊢
    rw [h1] at hle
    simp only [List.length_cons] at hle
    have hq := rdWait_quiet c a s.out h.ready.1
    have hh : (⟨.edge, rdWait c a s.out, i, j, r⟩ : Sim MmIn MmOut).cur :: (⟨.edge, rdWait c a s.out, i, j, r⟩ : Sim MmIn MmOut).rest = L.drop (n + 1 + 1) := by
      have := h.here
      rw [h1] at this
      rw [show n + 1 + 1 = n + 2 by omega, ← List.drop_drop, ← this]
      rfl
    generalize hs1 : (⟨.edge, rdWait c a s.out, i, j, r⟩ : Sim MmIn MmOut) = s1 at *
    have hs1o : s1.out = rdWait c a s.out := by rw [← hs1]
    have hs1p : s1.phase = .edge := by rw [← hs1]
    -- the records of the data phase all drive the same
    have hcon := mmReadData_const c (memSees s1.out)
    have hP : s1.phase ≠ .ro ∧ memSees s1.out = memSees s1.out := ⟨by rw [hs1p]; decide, rfl⟩
    have k1 := hcon.records s1 hP
    have k2 : memSees (mmReadData c s1).2.sim.out = memSees s1.out := by
      cases he : (mmReadData c s1).2 with
      | ok d s' => exact hcon.ok s1 hP d s' he
      | err e s' => exact hcon.err s1 hP e s' he
      | blocked s' => exact hcon.blocked s1 hP s' he
    have hf' : Follows X n ([({ s.out with busy := true }, s.cur), (rdReq c a s.out, i)] ++ (mmReadData c s1).1) (mmReadData c s1).2.sim.out := by
      cases he : mmReadData c s1 with
      | mk t e =>
        rw [he] at hf
        cases e with
        | ok d s' => simpa [Res.andThen, pure_run, End.sim] using hf
        | err e s' => simpa [Res.andThen, End.sim] using hf
        | blocked s' => simpa [Res.andThen, End.sim] using hf
    have hX0 : ∀ i, X[n]? = some i → memSees (rdReq c a s.out) = i := fun i hi => by
      simpa using hf' 0 i (by simp) hi
    have hXk : ∀ k i, k ≤ (mmReadData c s1).1.length → X[n + 1 + k]? = some i → memSees s1.out = i := by
      intro k i hk hi
      have := hf' (k + 1) i (by simp; omega) (by rw [← hi]; congr 1; omega)
      rw [Option.map_eq_some_iff] at this
      obtain ⟨q, hq, rfl⟩ := this
      have hq : ((mmReadData c s1).1.map Prod.fst ++ [(mmReadData c s1).2.sim.out])[k]? = some q := by
        rw [← hq]; simp
      have hq := List.mem_of_getElem? hq
      rcases List.mem_append.1 hq with hq | hq
      · obtain ⟨q', hq', rfl⟩ := List.mem_map.1 hq
        exact (k1 q' hq').symm
      · rw [List.mem_singleton] at hq
        rw [hq, k2]
    obtain ⟨⟨lat, hlat, hresp⟩, hmem⟩ := hj.read (n := n) (by omega) h.ready.1 a hr ha h.none hX0
    have hfin := readData hj hd (p := n + 1) hlat hs1p hh (by rw [hs1o]; exact hq) hresp hXk
    cases he : mmReadData c s1 with
    | mk t e =>
      rw [he] at hfin
      cases e with
      | ok d s' =>
        obtain ⟨f1, f2, f3, f4, f5, f6⟩ := hfin
        rw [h.mem] at f1
        have el : n + 1 + 1 + lat = n + (t.length + 2) := by simp only at f2; omega
        rw [el] at f4 f5 f6
        show _ ∧ _ ∧ _
        simp only [Res.andThen, pure_run, List.append_nil, List.length_append, List.length_cons, List.length_nil]
        rw [show n + (0 + 1 + 1 + t.length) = n + (t.length + 2) by omega]
        refine ⟨by rw [f1], by simp only at f2; omega, ⟨f4, ?_, f5, by rw [f6, hmem, h.mem]⟩⟩
        rw [f3]
        refine ⟨?_, rfl⟩
        rw [hs1o]
        exact hq
      | err e s' => exact hfin.elim
      | blocked s' =>
        show N < n + (2 + m.latMax)
        simp only at hfin
        omega

/-! ### the first cycle of an operation is one without request -/

theorem drivenIn_zero_cons {I O α : Type} (q : O × I) (t : List (O × I)) (e : End I O α) : drivenIn (q :: t, e) 0 = q.1 := rfl

theorem drivenIn_zero_nil {I O α : Type} (e : End I O α) : drivenIn (([] : List (O × I)), e) 0 = e.sim.out := rfl

theorem drivenIn_bind {I O α β : Type} (r : Res I O α) (f : α → M I O β) (hf : ∀ a s, r.2 = .ok a s → r.1 = [] → drivenIn (f a s) 0 = s.out) :
    drivenIn (r.andThen f) 0 = drivenIn r 0 := by
  obtain ⟨t, e⟩ := r
  cases e with
  | ok a s =>
    rw [andThen_ok]
    cases t with
    | nil =>
      rw [drivenIn_zero_nil]
      exact hf a s rfl rfl
    | cons q t => rfl
  | err e s => rfl
  | blocked s => rfl

theorem mmAcquire_run (s : Sim MmIn MmOut) : mmAcquire s =
    if s.out.busy then ([], .blocked s) else ([], .ok () { s with out := { s.out with busy := true } }) := by
  unfold mmAcquire
  rw [bind_getOut]
  cases hb : s.out.busy <;> rfl

/-- an operation starts by waiting for an edge -/
theorem drivenIn_op {α : Type} (b : Bool) (e : PyErr) (k : Unit → M MmIn MmOut α) (s : Sim MmIn MmOut) :
    memSees (drivenIn ((Coro.when b (raise e) >>= fun _ => mmAcquire >>= fun _ => awaitEdge >>= k) s) 0) = memSees s.out := by
  cases b with
  | true => rfl
  | false =>
    simp only [Coro.when, Bool.false_eq_true, if_false, pure_bind]
    rw [bind_run, mmAcquire_run]
    cases hb : s.out.busy with
    | true => rfl
    | false =>
      simp only [Bool.false_eq_true, if_false]
      rw [andThen_ok]
      obtain ⟨ph, out, prev, cur, rest⟩ := s
      cases rest with
      | nil => rw [bind_awaitEdge_nil _ _ rfl]; rfl
      | cons i r => rw [bind_awaitEdge_cons _ _ i r rfl]; rfl

theorem mmStep_driven0 (c : MmCfg) (op : MmOp) (s : Sim MmIn MmOut) : memSees (drivenIn (mmStep c op s) 0) = memSees s.out := by
  have hp : ∀ {α β : Type} (r : Res MmIn MmOut α) (g : α → β), drivenIn (r.andThen (fun a => pure (g a))) 0 = drivenIn r 0 :=
    fun r g => drivenIn_bind r _ (fun a s _ _ => rfl)
  cases op with
  | write a v =>
    show memSees (drivenIn (Res.andThen (mmWrite c a v s) (fun _ => pure none)) 0) = _
    rw [hp (mmWrite c a v s) (fun _ => none)]
    exact drivenIn_op _ _ _ s
  | read a =>
    show memSees (drivenIn (Res.andThen (mmRead c a true s) (fun d => pure (some d))) 0) = _
    rw [hp (mmRead c a true s) some]
    exact drivenIn_op _ _ _ s
  | pause n =>
    show memSees (drivenIn (Res.andThen ((edges n : M MmIn MmOut Unit) s) (fun _ => pure none)) 0) = _
    rw [hp ((edges n : M MmIn MmOut Unit) s) (fun _ => none)]
    cases n with
    | zero => rfl
    | succ n =>
      obtain ⟨ph, out, prev, cur, rest⟩ := s
      unfold edges
      cases rest with
      | nil => rw [bind_awaitEdge_nil _ _ rfl]; rfl
      | cons i r => rw [bind_awaitEdge_cons _ _ i r rfl]; rfl

theorem mmUse_driven0 (c : MmCfg) (ops : List MmOp) : ∀ s : Sim MmIn MmOut, memSees (drivenIn (mmUse c ops s).2 0) = memSees s.out := by
  induction ops with
  | nil => intro s; rfl
  | cons op ops ih =>
    intro s
    have h := mmStep_driven0 c op s
    unfold mmUse
    cases hr : mmStep c op s with
    | mk t e =>
      rw [hr] at h
      cases e with
      | ok d s' =>
        simp only
        cases t with
        | nil =>
          rw [drivenIn_zero_nil] at h
          rw [← h]
          exact ih s'
        | cons q t => exact h
      | err e s' => exact h
      | blocked s' => exact h

/-! ### all operations -/

/-- the inputs of the memory during the first operation -/
theorem use_follows {op : MmOp} {ops : List MmOp} {s : Sim MmIn MmOut} {n : Nat}
    (hX : ∀ k i, X[n + k]? = some i → i = memSees (drivenIn (mmUse c (op :: ops) s).2 (k + 1))) :
    Follows X n (mmStep c op s).1 (mmStep c op s).2.sim.out := by
  intro k i hk hi
  have hi := hX k i hi
  unfold mmUse at hi
  cases hr : mmStep c op s with
  | mk t e =>
    rw [hr] at hi hk
    simp only at hk
    cases e with
    | ok d s' =>
      simp only at hi
      rw [hi]
      simp only [End.sim]
      by_cases hkt : k + 1 < t.length
      · rw [List.getElem?_append_left (by simpa using hkt)]
        simp [drivenIn, List.getElem?_append_left, hkt]
      · have e1 : k + 1 = t.length := by omega
        rw [List.getElem?_append_right (by simp; omega)]
        have h0 := mmUse_driven0 c ops s'
        simp only [drivenIn, List.length_map, e1, Nat.sub_self] at h0 ⊢
        rw [List.getElem?_append_right (by omega), Nat.sub_self]
        simp [h0]
    | err e s' =>
      simp only at hi
      rw [hi]
      simp only [drivenIn, End.sim]
      by_cases hkt : k + 1 < t.length
      · rw [List.getElem?_append_left (by simpa using hkt)]
        simp [hkt]
      · rw [List.getElem?_append_right (by simp; omega), List.getElem?_eq_none (by omega : t.length ≤ k + 1)]
        have e1 : k + 1 - (t.map Prod.fst).length = 0 := by simp; omega
        rw [e1]; rfl
    | blocked s' =>
      simp only at hi
      rw [hi]
      simp only [drivenIn, End.sim]
      by_cases hkt : k + 1 < t.length
      · rw [List.getElem?_append_left (by simpa using hkt)]
        simp [hkt]
      · rw [List.getElem?_append_right (by simp; omega), List.getElem?_eq_none (by omega : t.length ≤ k + 1)]
        have e1 : k + 1 - (t.map Prod.fst).length = 0 := by simp; omega
        rw [e1]; rfl

theorem use_main (hj : Joint c m rand o L X N) (hd : c.hasRdv = true ∨ m.latMax = 0) (ops : List MmOp) :
    ∀ (s : Sim MmIn MmOut) (n : Nat) (mem : Nat → Option Nat), (∀ op ∈ ops, OpOk c op) → At c m rand o L X n mem s →
    (∀ k i, X[n + k]? = some i → i = memSees (drivenIn (mmUse c ops s).2 (k + 1))) →
    (∃ l, (mmUse c ops s).1 ++ l = readsOf m.width mem ops) ∧ (∀ e s', (mmUse c ops s).2.2 ≠ .err e s') ∧
    ((mmUse c ops s).2.2.isOk = true → (mmUse c ops s).1 = readsOf m.width mem ops) ∧
    (n + edgesFor m.latMax ops ≤ N → (mmUse c ops s).2.2.isOk = true) := by
  induction ops with
  | nil =>
    intro s n mem _ _ _
    exact ⟨⟨[], rfl⟩, fun e s' h => (by cases h), fun _ => rfl, fun _ => rfl⟩
  | cons op ops ih =>
    intro s n mem hops hat hX
    have hop := hops op (by simp)
    have hops' : ∀ op ∈ ops, OpOk c op := fun q hq => hops q (List.mem_cons_of_mem _ hq)
    have hfol := use_follows hX
    -- the rest, once the step is done
    have rest : ∀ (mem' : Nat → Option Nat) (res : Option LogicArray) (cost : Nat), StepOk c m rand o L X N n cost mem' res (mmStep c op s) →
        readsOf m.width mem (op :: ops) = res.toList ++ readsOf m.width mem' ops → edgesFor m.latMax (op :: ops) = cost + edgesFor m.latMax ops →
        (∃ l, (mmUse c (op :: ops) s).1 ++ l = readsOf m.width mem (op :: ops)) ∧ (∀ e s', (mmUse c (op :: ops) s).2.2 ≠ .err e s') ∧
        ((mmUse c (op :: ops) s).2.2.isOk = true → (mmUse c (op :: ops) s).1 = readsOf m.width mem (op :: ops)) ∧
        (n + edgesFor m.latMax (op :: ops) ≤ N → (mmUse c (op :: ops) s).2.2.isOk = true) := by
      intro mem' res cost hstep hreads hcost
      rw [hreads, hcost]
      unfold mmUse at hX ⊢
      cases hr : mmStep c op s with
      | mk t e =>
        rw [hr] at hstep hX
        cases e with
        | ok d s' =>
          obtain ⟨rfl, hlen, hat'⟩ := hstep
          simp only at hX hlen hat' ⊢
          obtain ⟨⟨l, i1⟩, i2, i3, i4⟩ := ih s' (n + t.length) mem' hops' hat' (by
            intro k i hi
            have := hX (t.length + k) i (by rw [← Nat.add_assoc]; exact hi)
            rw [this]
            simp only [drivenIn]
            rw [List.getElem?_append_right (by omega), show t.length + k + 1 - t.length = k + 1 by omega])
          refine ⟨⟨l, by rw [List.append_assoc, i1]⟩, i2, fun h => by rw [i3 h], fun h => i4 (by omega)⟩
        | err e s' => exact hstep.elim
        | blocked s' =>
          have hstep : N < n + cost := hstep
          refine ⟨⟨_, rfl⟩, fun e s' h => (by cases h), fun h => (by cases h), fun h => ?_⟩
          omega
    cases op with
    | write a v => exact rest _ none 2 (step_write hj a v hop hat hfol) rfl rfl
    | read a =>
      refine rest mem _ (2 + m.latMax) (step_read hj hd a hop hat hfol) ?_ rfl
      simp only [readsOf, Option.toList_some, List.singleton_append]
      congr 1
      cases mem a <;> rfl
    | pause k => exact rest mem none k (step_pause hj k hat hfol) rfl rfl

end CocotbBus
