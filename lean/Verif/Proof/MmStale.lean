import Verif.Proof.MmLoop

/-! # A master and a memory on one bus without readdatavalid -/

namespace CocotbBus
open Spec Coro

/-! ### the words that are on their way -/

/-- in cycle `n` the words of `past` have appeared or are on their way -/
structure Pipe (m : MemCfg) (rand : Nat → Nat) (d0 : Nat) (first : LogicArray) (past : List (Nat × LogicArray)) (n : Nat) (p : MemOut) : Prop where
  sorted : past.Pairwise (fun a b => a.1 < b.1)
  drawn : p.drawn = d0 + past.length
  resp : ∀ j v, (∃ r, p.responses[j]? = some (some r) ∧ respBits m r = v) ↔ (n + 1 + j, v) ∈ past
  len : n + p.responses.length = max n (lastCycle past)
  data : p.readdata = showing first past n

theorem lastCycle_append (past : List (Nat × LogicArray)) (e : Nat × LogicArray) : lastCycle (past ++ [e]) = e.1 := by simp [lastCycle]

theorem le_lastCycle (past : List (Nat × LogicArray)) (h : past.Pairwise (fun a b => a.1 < b.1)) : ∀ e ∈ past, e.1 ≤ lastCycle past := by
  intro e he
  rcases List.eq_nil_or_concat past with rfl | ⟨a, b, rfl⟩
  · simp at he
  · rw [List.concat_eq_append] at *
    rw [lastCycle_append]
    rcases List.mem_append.1 he with he | he
    · exact Nat.le_of_lt ((List.pairwise_append.1 h).2.2 e he b (by simp))
    · rw [List.mem_singleton] at he; rw [he]; exact Nat.le_refl _

theorem showing_succ_of_mem (first : LogicArray) (past : List (Nat × LogicArray)) (h : past.Pairwise (fun a b => a.1 < b.1)) (n : Nat) (v : LogicArray)
    (hm : (n + 1, v) ∈ past) : showing first past (n + 1) = v := by
  obtain ⟨a, b, rfl⟩ := List.append_of_mem hm
  obtain ⟨-, h2, h3⟩ := List.pairwise_append.1 h
  have hb := (List.pairwise_cons.1 h2).1
  unfold showing
  rw [List.filter_append, List.filter_cons_of_pos (by simp), (List.filter_eq_nil_iff.2 (fun e he => by have := hb e he; simp at this ⊢; omega) : b.filter _ = [])]
  simp

theorem showing_succ_of_not_mem (first : LogicArray) (past : List (Nat × LogicArray)) (n : Nat)
    (hm : ∀ v, (n + 1, v) ∉ past) : showing first past (n + 1) = showing first past n := by
  unfold showing
  congr 3
  apply List.filter_congr
  intro e he
  have : e.1 ≠ n + 1 := fun h => hm e.2 (by rw [← h]; exact he)
  by_cases h : e.1 ≤ n <;> simp [h] <;> omega

variable {c : MmCfg} {m : MemCfg} {rand : Nat → Nat} {o : MemOut} {L : List MmIn} {X : List MemIn} {N : Nat}
  {d0 : Nat} {first : LogicArray} {past : List (Nat × LogicArray)}

theorem Pipe.pop {n : Nat} {p : MemOut} (h : Pipe m rand d0 first past n p) : Pipe m rand d0 first past (n + 1) (memPop m p) := by
  obtain ⟨-, q2, -, q4⟩ := memPop_rest m p
  refine ⟨h.sorted, by rw [q4, h.drawn], ?_, ?_, ?_⟩
  · intro j v
    rw [q2, List.getElem?_tail, h.resp (j + 1) v, show n + 1 + (j + 1) = n + 1 + 1 + j by omega]
  · have := h.len
    rw [q2, List.length_tail]
    omega
  · have h0 := h.resp 0
    rw [Nat.add_zero] at h0
    have hz : p.responses.head? = p.responses[0]? := by cases p.responses <;> rfl
    unfold memPop
    split
    · rename_i r hr
      rw [hz] at hr
      exact (showing_succ_of_mem first past h.sorted n _ ((h0 (respBits m r)).1 ⟨r, hr, rfl⟩)).symm
    · rename_i hr
      rw [showing_succ_of_not_mem, h.data]
      intro v hv
      obtain ⟨r, h1, -⟩ := (h0 v).2 hv
      exact hr r (by rw [hz, h1])

/-- a read request is served -/
theorem Pipe.serve {n : Nat} {p : MemOut} (h : Pipe m rand d0 first past n p) (r : MemResp) (lat : Nat) (q : MemOut)
    (hd : q.drawn = p.drawn + 1) (hq : q.responses = p.responses ++ List.replicate (lat - p.responses.length) none ++ [some r]) (hr : q.readdata = p.readdata) :
    Pipe m rand d0 first (past ++ [(max (n + 1 + lat) (lastCycle past + 1), respBits m r)]) n q := by
  have hle := le_lastCycle past h.sorted
  have hlen := h.len
  have hpos : max (n + 1 + lat) (lastCycle past + 1) = n + 1 + max lat p.responses.length := by omega
  rw [hpos]
  refine ⟨?_, by rw [hd, h.drawn]; simp; omega, ?_, ?_, ?_⟩
  · refine List.pairwise_append.2 ⟨h.sorted, List.pairwise_singleton _ _, ?_⟩
    intro a ha b hb
    rw [List.mem_singleton] at hb
    have := hle a ha
    rw [hb]
    simp only
    omega
  · intro j v
    have hl : (p.responses ++ List.replicate (lat - p.responses.length) none).length = max lat p.responses.length := by simp; omega
    rw [List.mem_append, List.mem_singleton, Prod.mk.injEq, ← h.resp j v, hq]
    constructor
    · rintro ⟨r', h1, h2⟩
      by_cases hj : j < max lat p.responses.length
      · rw [List.getElem?_append_left (by omega)] at h1
        left
        by_cases hj2 : j < p.responses.length
        · rw [List.getElem?_append_left hj2] at h1
          exact ⟨r', h1, h2⟩
        · rw [List.getElem?_append_right (by omega), List.getElem?_replicate] at h1
          split at h1 <;> cases h1
      · rw [List.getElem?_append_right (by omega), hl] at h1
        have h0 : j - max lat p.responses.length = 0 := by
          cases hk : j - max lat p.responses.length with
          | zero => rfl
          | succ k => rw [hk] at h1; simp at h1
        rw [h0] at h1
        simp only [List.getElem?_cons_zero, Option.some.injEq] at h1
        right
        exact ⟨by omega, by rw [h1]; exact h2.symm⟩
    · rintro (⟨r', h1, h2⟩ | ⟨h1, h2⟩)
      · have hj := (List.getElem?_eq_some_iff.1 h1).1
        exact ⟨r', by rw [List.append_assoc, List.getElem?_append_left hj, h1], h2⟩
      · refine ⟨r, ?_, h2.symm⟩
        have : j = max lat p.responses.length := by omega
        rw [List.getElem?_append_right (by omega), hl, this, Nat.sub_self]
        rfl
  · rw [lastCycle_append, hq]
    simp
    omega
  · rw [hr, h.data]
    unfold showing
    rw [List.filter_append, List.filter_cons_of_neg (by simp; omega)]
    simp

/-! ### the joint execution -/

/-- between two operations, in cycle `n` -/
structure AtP (c : MmCfg) (m : MemCfg) (rand : Nat → Nat) (o : MemOut) (L : List MmIn) (X : List MemIn) (d0 : Nat) (first : LogicArray)
    (past : List (Nat × LogicArray)) (n : Nat) (mem : Nat → Option Nat) (s : Sim MmIn MmOut) : Prop where
  here : s.cur :: s.rest = L.drop n
  ready : MmReady c s.out
  pipe : Pipe m rand d0 first past n (memAt m rand o X n)
  mem : (memAt m rand o X n).mem = mem

theorem AtP.le (hj : Joint c m rand o L X N) {n : Nat} {mem : Nat → Option Nat} {s : Sim MmIn MmOut} (h : AtP c m rand o L X d0 first past n mem s) :
    n + s.rest.length = N := by
  have := congrArg List.length h.here
  simp [hj.lenL] at this
  omega

/-- cycles without requests -/
theorem Joint.quietsP (hj : Joint c m rand o L X N) (p : Nat) {out : MmOut} (hq : Quiet c out) (hp : Pipe m rand d0 first past p (memAt m rand o X p)) (k : Nat) :
    p + k ≤ N + 1 → (∀ j < k, ∀ i, X[p + j]? = some i → memSees out = i) →
    Pipe m rand d0 first past (p + k) (memAt m rand o X (p + k)) ∧ (memAt m rand o X (p + k)).mem = (memAt m rand o X p).mem := by
  induction k with
  | zero => intro _ _; exact ⟨hp, rfl⟩
  | succ k ih =>
    intro hk h
    obtain ⟨i1, i2⟩ := ih (by omega) (fun j hj => h j (by omega))
    have := hj.quiet (n := p + k) (by omega) hq (h k (by omega))
    rw [← Nat.add_assoc, this]
    exact ⟨i1.pop, by rw [(memPop_rest m _).1, i2]⟩

theorem Joint.writeP (hj : Joint c m rand o L X N) {n : Nat} (hn : n ≤ N) {out : MmOut} (hq : Quiet c out) (a v : Nat) (hw : c.hasWrite = true)
    (ha : a < 2 ^ c.addrW) (hv : v < 2 ^ c.dataW) (hp : Pipe m rand d0 first past n (memAt m rand o X n))
    (h : ∀ i, X[n]? = some i → memSees (wrReq c a v out) = i) :
    Pipe m rand d0 first past (n + 1) (memAt m rand o X (n + 1)) ∧
    (memAt m rand o X (n + 1)).mem = fun b => if b = a then some v else (memAt m rand o X n).mem b := by
  obtain ⟨i, hi⟩ := getElem?_of_lt X n (by rw [hj.lenX]; omega)
  rw [memAt_succ m rand o X n i hi]
  have hi := h i hi
  generalize memAt m rand o X n = p at *
  obtain ⟨p1, p2, -, -⟩ := memPop_rest m p
  have hpop := hp.pop
  have hrd : memReads m i = false := by
    rw [← hi]
    have := (hq.idle hj.bus).1
    exact this
  have hwr : memWrites m i = true := by
    rw [← hi]
    simp [memWrites, hj.bus.writedata, hw, memSees, wrReq, mmSelect]
  have had : bitsToNat i.address = a := by
    rw [← hi]
    show bitsToNat (natToBits c.addrW a) = a
    rw [bitsToNat_natToBits, Nat.mod_eq_of_lt ha]
  have hdat : bitsToNat i.writedata = v := by
    rw [← hi]
    show bitsToNat (natToBits c.dataW v) = v
    rw [bitsToNat_natToBits, Nat.mod_eq_of_lt hv]
  have hnew : ∀ old, memNewWord m i old = v := by
    intro old
    unfold memNewWord
    split
    · rename_i hbe
      rw [hj.bus.be.1] at hbe
      obtain ⟨w, hw⟩ := Option.isSome_iff_exists.1 hbe
      rw [hdat, memMerge_all m hj.mem.bytes v _ _ (by rw [← hj.bus.width]; exact hv)]
      intro j hjw
      rw [← hi]
      show (bitsToNat (wrReq c a v out).byteenable).testBit j = true
      rw [wrReq, select_be c _ w hw, bitsToNat_ones, Nat.testBit_two_pow_sub_one]
      have := hj.bus.be.2 w hw
      simp; omega
    · exact hdat
  unfold memTick memServeRead memServeWrite
  rw [hrd, hwr]
  simp only [Bool.false_eq_true, if_false, if_true, had, hnew, p1]
  exact ⟨⟨hpop.sorted, hpop.drawn, hpop.resp, hpop.len, hpop.data⟩, rfl⟩

theorem Joint.readP (hj : Joint c m rand o L X N) {n : Nat} (hn : n ≤ N) {out : MmOut} (hq : Quiet c out) (a : Nat) (hr : c.hasRead = true)
    (ha : a < 2 ^ c.addrW) (hp : Pipe m rand d0 first past n (memAt m rand o X n))
    (h : ∀ i, X[n]? = some i → memSees (rdReq c a out) = i) :
    Pipe m rand d0 first (past ++ [(max (n + 2 + memLat m rand (d0 + past.length)) (lastCycle past + 1), memWordBits m.width ((memAt m rand o X n).mem a))])
      (n + 1) (memAt m rand o X (n + 1)) ∧
    (memAt m rand o X (n + 1)).mem = (memAt m rand o X n).mem := by
  obtain ⟨i, hi⟩ := getElem?_of_lt X n (by rw [hj.lenX]; omega)
  rw [memAt_succ m rand o X n i hi]
  have hi := h i hi
  generalize memAt m rand o X n = p at *
  obtain ⟨p1, p2, -, p4⟩ := memPop_rest m p
  have hpop := hp.pop
  have hwr : memWrites m i = false := by
    rw [← hi]
    have := (hq.idle hj.bus).2
    exact this
  have hrd : memReads m i = true := by
    rw [← hi]
    simp [memReads, hj.bus.readdata, hr, memSees, rdReq, mmSelect]
  have had : bitsToNat i.address = a := by
    rw [← hi]
    show bitsToNat (natToBits c.addrW a) = a
    rw [bitsToNat_natToBits, Nat.mod_eq_of_lt ha]
  have hw : memWordBits m.width (p.mem a) = respBits m (respOf (p.mem a)) := by cases p.mem a <;> rfl
  unfold memTick memServeRead memServeWrite
  rw [hrd, hwr]
  simp only [Bool.false_eq_true, if_false, if_true, had, p1]
  refine ⟨?_, trivial⟩
  rw [hw, ← hp.drawn, ← p4, show n + 2 + memLat m rand (memPop m p).drawn = n + 1 + 1 + memLat m rand (memPop m p).drawn by omega]
  exact hpop.serve _ _ _ rfl rfl rfl

/-- what a step does in cycle `n` and those after -/
def StepP (c : MmCfg) (m : MemCfg) (rand : Nat → Nat) (o : MemOut) (L : List MmIn) (X : List MemIn) (d0 : Nat) (first : LogicArray)
    (N n cost : Nat) (past' : List (Nat × LogicArray)) (mem' : Nat → Option Nat)
    (res : Option LogicArray) (r : Res MmIn MmOut (Option LogicArray)) : Prop :=
  match r.2 with
  | .ok d s' => d = res ∧ r.1.length = cost ∧ AtP c m rand o L X d0 first past' (n + r.1.length) mem' s'
  | .blocked _ => N < n + cost
  | .err _ _ => False

theorem stepP_pause (hj : Joint c m rand o L X N) (k : Nat) {n : Nat} {mem : Nat → Option Nat} {s : Sim MmIn MmOut}
    (h : AtP c m rand o L X d0 first past n mem s)
    (hf : Follows X n (mmStep c (.pause k) s).1 (mmStep c (.pause k) s).2.sim.out) :
    StepP c m rand o L X d0 first N n k past mem none (mmStep c (.pause k) s) := by
  have hle := h.le hj
  have hgood := Good.edges (I := MmIn) (O := MmOut) k s
  have hst : mmStep c (.pause k) s = Res.andThen ((edges k : M MmIn MmOut Unit) s) (fun _ => pure none) := rfl
  rw [hst] at hf ⊢
  have hout := edges_run k s
  generalize (edges k : M MmIn MmOut Unit) s = r at *
  have hg1 := congrArg List.length hgood.1
  have hh := here_of r hgood.1 h.here
  have hrec : r.1 = (sampled k s).map (fun i => (s.out, i)) := by rw [hout]
  simp only [List.length_cons, List.length_append, List.length_map] at hg1
  have hend : r.2 = if k ≤ s.rest.length then .ok () (advance k s) else .blocked (advance k s) := by rw [hout]
  by_cases hk : k ≤ s.rest.length
  · rw [if_pos hk] at hend
    have hr : r = (r.1, .ok () (advance k s)) := by rw [← hend]
    rw [hr, andThen_ok] at hf ⊢
    simp only [pure_run, List.append_nil, End.sim] at hf ⊢
    rw [hend] at hh hg1
    simp only [End.sim, advance_rest, List.length_drop] at hh hg1
    obtain ⟨q1, q2⟩ := hj.quietsP n h.ready.1 h.pipe r.1.length (by omega) (hf.const (fun q hq => by
      rw [hrec] at hq
      obtain ⟨i, -, rfl⟩ := List.mem_map.1 hq
      rfl) (by rw [advance_out]))
    refine ⟨rfl, by simp only; omega, ⟨by rw [advance_rest]; exact hh, by rw [advance_out]; exact h.ready, q1, ?_⟩⟩
    simp only; rw [q2, h.mem]
  · rw [if_neg hk] at hend
    have hr : r = (r.1, .blocked (advance k s)) := by rw [← hend]
    rw [hr, andThen_blocked]
    show N < n + k
    omega

theorem stepP_write (hj : Joint c m rand o L X N) (a v : Nat) (hop : OpOk c (.write a v)) {n : Nat} {mem : Nat → Option Nat} {s : Sim MmIn MmOut}
    (h : AtP c m rand o L X d0 first past n mem s) (hf : Follows X n (mmStep c (.write a v) s).1 (mmStep c (.write a v) s).2.sim.out) :
    StepP c m rand o L X d0 first N n 2 past (fun b => if b = a then some v else mem b) none (mmStep c (.write a v) s) := by
  have hle := h.le hj
  obtain ⟨hw, ha, hv⟩ := hop
  have hwait : c.hasWait = true → ∀ i ∈ s.rest, i.waitrequest = .zero := fun hw i hi =>
    hj.waits n hw i (by rw [← h.here]; exact List.mem_cons_of_mem _ hi)
  have hst : mmStep c (.write a v) s = Res.andThen (mmWrite c a v s) (fun _ => pure none) := rfl
  rw [hst] at hf ⊢
  rcases mmWrite_run c a v hw ha hv s h.ready.2 hwait with ⟨s', h1, h2⟩ | ⟨t, s', h1, h2⟩ | ⟨i, j, r, h1, h2⟩
  · rw [h1, andThen_blocked]
    show N < n + 2
    rw [h2] at hle
    simp at hle; omega
  · rw [h1, andThen_blocked]
    show N < n + 2
    omega
  · rw [h2, andThen_ok] at hf ⊢
    rw [h1] at hle
    simp only [List.length_cons] at hle
    simp only [pure_run, List.append_nil, End.sim] at hf ⊢
    have hX0 : ∀ i, X[n]? = some i → memSees (wrReq c a v s.out) = i := fun i hi => by
      simpa using hf 0 i (by simp) hi
    have hX1 : ∀ i, X[n + 1]? = some i → memSees (wrDone c a v s.out) = i := fun i hi => by
      simpa using hf 1 i (by simp) hi
    obtain ⟨w1, w2⟩ := hj.writeP (n := n) (by omega) h.ready.1 a v hw ha hv h.pipe hX0
    have hrdy := wrDone_ready c a v s.out h.ready.1
    have hq := hj.quiet (n := n + 1) (by omega) hrdy.1 hX1
    refine ⟨rfl, by simp, ⟨?_, hrdy, ?_, ?_⟩⟩
    · have := h.here
      rw [h1] at this
      rw [← List.drop_drop, ← this]
      rfl
    · show Pipe m rand d0 first past (n + 1 + 1) (memAt m rand o X (n + 1 + 1))
      rw [hq]; exact w1.pop
    · show (memAt m rand o X (n + 1 + 1)).mem = _
      rw [hq, (memPop_rest m _).1, w2, h.mem]

theorem stepP_read (hj : Joint c m rand o L X N) (hd : c.hasRdv = false) (a : Nat) (hop : OpOk c (.read a)) {n : Nat} {mem : Nat → Option Nat}
    {s : Sim MmIn MmOut} (h : AtP c m rand o L X d0 first past n mem s)
    (hf : Follows X n (mmStep c (.read a) s).1 (mmStep c (.read a) s).2.sim.out) :
    let past' := past ++ [(max (n + 2 + memLat m rand (d0 + past.length)) (lastCycle past + 1), memWordBits m.width (mem a))]
    StepP c m rand o L X d0 first N n 2 past' mem (some (showing first past' (n + 2))) (mmStep c (.read a) s) := by
  intro past'
  have hle := h.le hj
  obtain ⟨hr, ha⟩ := hop
  have hwait : c.hasWait = true → ∀ i ∈ s.rest, i.waitrequest = .zero := fun hw i hi =>
    hj.waits n hw i (by rw [← h.here]; exact List.mem_cons_of_mem _ hi)
  have hst : mmStep c (.read a) s = Res.andThen (mmRead c a true s) (fun d => pure (some d)) := rfl
  rw [hst] at hf ⊢
  rcases mmRead_run c a hr ha s h.ready.2 hwait with ⟨t, s', h1, h2⟩ | ⟨i, j, r, h1, h2⟩
  · rw [h1, andThen_blocked]
    show N < n + 2
    omega
  · have hdata : mmReadData c ⟨.edge, rdWait c a s.out, i, j, r⟩ =
        ([], .ok j.readdata ⟨.ro, { rdWait c a s.out with busy := false }, i, j, r⟩) := by
      unfold mmReadData
      rw [hd]
      simp only [Bool.false_eq_true, if_false]
      rw [bind_readOnly _ _ _ (by simp), bind_inp_ro _ _ rfl]
      rfl
    rw [h2, andThen_ok, hdata] at hf ⊢
    simp only [andThen_ok, pure_run, List.append_nil, End.sim] at hf ⊢
    rw [h1] at hle
    simp only [List.length_cons] at hle
    have hX0 : ∀ i, X[n]? = some i → memSees (rdReq c a s.out) = i := fun i hi => by
      simpa using hf 0 i (by simp) hi
    have hX1 : ∀ i, X[n + 1]? = some i → memSees (rdWait c a s.out) = i := fun i hi => by
      simpa [memSees] using hf 1 i (by simp) hi
    obtain ⟨w1, w2⟩ := hj.readP (n := n) (by omega) h.ready.1 a hr ha h.pipe hX0
    have hq' := rdWait_quiet c a s.out h.ready.1
    have hq := hj.quiet (n := n + 1) (by omega) hq' hX1
    have hh : j :: r = L.drop (n + 2) := by
      have := h.here
      rw [h1] at this
      rw [← List.drop_drop, ← this]
      rfl
    rw [h.mem] at w1 w2
    have hp2 : Pipe m rand d0 first past' (n + 2) (memAt m rand o X (n + 2)) := by
      show Pipe m rand d0 first past' (n + 1 + 1) (memAt m rand o X (n + 1 + 1))
      rw [hq]; exact w1.pop
    refine ⟨?_, by simp, ⟨hh, ⟨hq', rfl⟩, hp2, ?_⟩⟩
    · rw [(hj.drop hh).1]
      exact congrArg some hp2.data
    · show (memAt m rand o X (n + 1 + 1)).mem = _
      rw [hq, (memPop_rest m _).1, w2]

theorem useP_main (hj : Joint c m rand o L X N) (hd : c.hasRdv = false) (ops : List MmOp) :
    ∀ (s : Sim MmIn MmOut) (n : Nat) (past : List (Nat × LogicArray)) (mem : Nat → Option Nat), (∀ op ∈ ops, OpOk c op) →
    AtP c m rand o L X d0 first past n mem s →
    (∀ k i, X[n + k]? = some i → i = memSees (drivenIn (mmUse c ops s).2 (k + 1))) →
    (∃ l, (mmUse c ops s).1 ++ l = lateReads m.width (fun k => memLat m rand (d0 + k)) first n past mem ops) ∧ (∀ e s', (mmUse c ops s).2.2 ≠ .err e s') ∧
    ((mmUse c ops s).2.2.isOk = true → (mmUse c ops s).1 = lateReads m.width (fun k => memLat m rand (d0 + k)) first n past mem ops) ∧
    (n + edgesFor 0 ops ≤ N → (mmUse c ops s).2.2.isOk = true) := by
  induction ops with
  | nil =>
    intro s n past mem _ _ _
    exact ⟨⟨[], rfl⟩, fun e s' h => (by cases h), fun _ => rfl, fun _ => rfl⟩
  | cons op ops ih =>
    intro s n past mem hops hat hX
    have hop := hops op (by simp)
    have hops' : ∀ op ∈ ops, OpOk c op := fun q hq => hops q (List.mem_cons_of_mem _ hq)
    have hfol : Follows X n (mmStep c op s).1 (mmStep c op s).2.sim.out := use_follows hX
    have rest : ∀ (past' : List (Nat × LogicArray)) (mem' : Nat → Option Nat) (res : Option LogicArray) (cost : Nat),
        StepP c m rand o L X d0 first N n cost past' mem' res (mmStep c op s) →
        lateReads m.width (fun k => memLat m rand (d0 + k)) first n past mem (op :: ops) =
          res.toList ++ lateReads m.width (fun k => memLat m rand (d0 + k)) first (n + cost) past' mem' ops →
        edgesFor 0 (op :: ops) = cost + edgesFor 0 ops →
        (∃ l, (mmUse c (op :: ops) s).1 ++ l = lateReads m.width (fun k => memLat m rand (d0 + k)) first n past mem (op :: ops)) ∧
        (∀ e s', (mmUse c (op :: ops) s).2.2 ≠ .err e s') ∧
        ((mmUse c (op :: ops) s).2.2.isOk = true →
          (mmUse c (op :: ops) s).1 = lateReads m.width (fun k => memLat m rand (d0 + k)) first n past mem (op :: ops)) ∧
        (n + edgesFor 0 (op :: ops) ≤ N → (mmUse c (op :: ops) s).2.2.isOk = true) := by
      intro past' mem' res cost hstep hreads hcost
      rw [hreads, hcost]
      unfold mmUse at hX ⊢
      cases hr : mmStep c op s with
      | mk t e =>
        rw [hr] at hstep hX
        cases e with
        | ok d s' =>
          obtain ⟨rfl, hlen, hat'⟩ := hstep
          simp only at hX hlen hat' ⊢
          subst hlen
          obtain ⟨⟨l, i1⟩, i2, i3, i4⟩ := ih s' (n + t.length) past' mem' hops' hat' (by
            intro k i hi
            have := hX (t.length + k) i (by rw [← Nat.add_assoc]; exact hi)
            rw [this]
            simp only [drivenIn]
            rw [List.getElem?_append_right (by omega), show t.length + k + 1 - t.length = k + 1 by omega])
          refine ⟨⟨l, by rw [List.append_assoc, i1]⟩, i2, fun h => by rw [i3 h], fun h => i4 (by omega)⟩
        | err e s' => exact hstep.elim
        | blocked s' =>
          have hstep : N < n + cost := hstep
          refine ⟨⟨_, rfl⟩, fun e s' h => (by cases h), fun h => (by cases h), fun h => ?_⟩
          omega
    cases op with
    | write a v => exact rest _ _ none 2 (stepP_write hj a v hop hat hfol) rfl rfl
    | read a => exact rest _ mem _ 2 (stepP_read hj hd a hop hat hfol) rfl rfl
    | pause k => exact rest past mem none k (stepP_pause hj k hat hfol) rfl rfl

end CocotbBus
