import Verif.Proof.AvalonMemory

/-! # Properties C45 to C49: `AvalonMemory` -/

namespace CocotbBus
open Spec Coro

/-- C46: for every schedule of single reads and writes and all random numbers, the memory answers for ever, and the responses (cycles
with readdatavalid=1, and their readdata) are exactly those of the specification. -/
theorem C46_responses (c : MemCfg) (hc : SingleMem c) (rand : Nat → Nat) (init : Nat → Option Nat) (k0 : Nat) (s : Sim MemIn MemOut)
    (hs : MemFresh c init k0 s.out) (hcl : ∀ i ∈ s.rest, MemClean c i) :
    let r := memRespond c rand s
    let due := memResponses c init (fun m => memLat c rand (k0 + m)) s.rest
    (∀ n q, 1 ≤ n → r.1[n]? = some q →
      (∀ w, (n, w) ∈ due → q.1.readdata = w) ∧
      (c.hasRdv = true → (q.1.readdatavalid = .one ∧ ∃ w, (n, w) ∈ due) ∨ (q.1.readdatavalid = .zero ∧ ∀ w, (n, w) ∉ due))) ∧
    r.1.length = s.rest.length ∧ ∃ s', r.2 = .blocked s' ∧ s'.rest = [] := by
  intro r due
  obtain ⟨h1, h2, s', h3, h4, -⟩ := memRespond_run c rand hc init k0 s.rest [] s.phase s.out s.prev s.cur (memInv_init c rand init k0 _ hs) hcl
  refine ⟨?_, h2, s', h3, h4⟩
  intro n q hn hq
  have hq1 := h1 n q hq
  have hnl : n < s.rest.length := by
    have := (List.getElem?_eq_some_iff.1 hq).1
    have h2' : r.1.length = s.rest.length := h2
    omega
  have hinv := memInv_run c rand hc init k0 s.out hs (s.rest.take n) (fun i hi => hcl i (List.mem_of_mem_take hi))
  have hlen : (s.rest.take n).length = n := by simp; omega
  have hne : s.rest.take n ≠ [] := by intro h; rw [h] at hlen; simp at hlen; omega
  rw [← hq1] at hinv
  have hiff : ∀ w, (n, w) ∈ due ↔ ∃ r, (n, r) ∈ memResps c init (fun m => memLat c rand (k0 + m)) (s.rest.take n) ∧ respBits c r = w := by
    intro w
    obtain ⟨extra, hsplit, hgt⟩ : ∃ extra, memResps c init (fun m => memLat c rand (k0 + m)) s.rest =
        memResps c init (fun m => memLat c rand (k0 + m)) (s.rest.take n) ++ extra ∧ ∀ p ∈ extra, n + 1 < p.1 := by
      refine ⟨_, ?_, responsesFrom_gt (fun m => memLat c rand (k0 + m)) n
        (readsFrom c (fun p a => respOf (if memKnown c init p a then
          some (leVal ((List.range (c.width / 8)).map (lastByte c init p a))) else none)) ([] ++ s.rest.take n) (s.rest.drop n))
        (fun q hq => by have := readsFrom_after c _ _ _ q hq; simp at this; omega) ?_ ?_⟩
      unfold memResps
      conv_lhs => rw [← List.take_append_drop n s.rest]
      rw [readsFrom_append]
      exact responsesFrom_append _ _ _ _ _
    show (n, w) ∈ memResponses c init _ s.rest ↔ _
    rw [memResponses_eq, hsplit, List.mem_map]
    constructor
    · rintro ⟨⟨t, r⟩, hm, he⟩
      simp only [Prod.mk.injEq] at he
      obtain ⟨rfl, rfl⟩ := he
      rcases List.mem_append.1 hm with hm | hm
      · exact ⟨r, hm, rfl⟩
      · exact absurd (hgt _ hm) (by simp)
    · rintro ⟨r, hm, rfl⟩
      exact ⟨(n, r), List.mem_append_left _ hm, rfl⟩
  constructor
  · intro w hw
    obtain ⟨r, hr, rfl⟩ := (hiff w).1 hw
    exact hinv.data hne r (by rw [hlen]; exact hr)
  · intro hrdv
    obtain ⟨p1, p2⟩ := hinv.pins hne hrdv
    rw [hlen] at p2
    by_cases h : q.1.readdatavalid = .one
    · left
      obtain ⟨r, hr⟩ := p2.1 h
      exact ⟨h, respBits c r, (hiff _).2 ⟨r, hr, rfl⟩⟩
    · right
      refine ⟨p1.resolve_left h, fun w hw => ?_⟩
      obtain ⟨r, hr, -⟩ := (hiff w).1 hw
      exact h (p2.2 ⟨r, hr⟩)

/-- C46, what the specified responses are: one per read and in order, each at least `readlatency_min` + 1 cycles after its
request, no two in one cycle, and none later than needed. -/
theorem C46_order_and_latency (c : MemCfg) (init : Nat → Option Nat) (rand : Nat → Nat) (k0 : Nat) (cycles : List MemIn) :
    let reads := readsFrom c (wordAt c init) [] cycles
    let due := memResponses c init (fun m => memLat c rand (k0 + m)) cycles
    due.map Prod.snd = reads.map Prod.snd ∧
    (due.map Prod.fst).Pairwise (· < ·) ∧
    (∀ m k w t w', reads[m]? = some (k, w) → due[m]? = some (t, w') →
      k + c.latMin + 1 ≤ t ∧ (t ≤ k + c.latMax + 1 ∨ c.latMax < c.latMin ∨ ∃ t' w'', 0 < m ∧ due[m - 1]? = some (t', w'') ∧ t = t' + 1)) := by
  intro reads due
  have key : ∀ (l : List (Nat × LogicArray)) m0 last, let d := responsesFrom (fun m => memLat c rand (k0 + m)) m0 last l
      d.map Prod.snd = l.map Prod.snd ∧ (∀ q ∈ d, last < q.1) ∧ (d.map Prod.fst).Pairwise (· < ·) ∧
      (∀ m k w t w', l[m]? = some (k, w) → d[m]? = some (t, w') →
        k + c.latMin + 1 ≤ t ∧ (t ≤ k + c.latMax + 1 ∨ c.latMax < c.latMin ∨
          (m = 0 ∧ t = last + 1) ∨ ∃ t' w'', 0 < m ∧ d[m - 1]? = some (t', w'') ∧ t = t' + 1)) := by
    intro l
    induction l with
    | nil => intro m0 last; simp [responsesFrom]
    | cons q r ih =>
      intro m0 last
      obtain ⟨i1, i2, i3, i4⟩ := ih (m0 + 1) (max (last + 1) (q.1 + 1 + memLat c rand (k0 + m0)))
      simp only [responsesFrom]
      refine ⟨by simp [i1], ?_, ?_, ?_⟩
      · intro p hp
        rcases List.mem_cons.1 hp with rfl | hp
        · simp only; omega
        · have := i2 p hp; omega
      · rw [List.map_cons, List.pairwise_cons]
        refine ⟨?_, i3⟩
        intro t ht
        obtain ⟨p, hp, rfl⟩ := List.mem_map.1 ht
        exact i2 p hp
      · intro m k w t w' h1 h2
        cases m with
        | zero =>
          simp only [List.getElem?_cons_zero, Option.some.injEq] at h1 h2
          rw [Prod.mk.injEq] at h2
          obtain ⟨h2, -⟩ := h2
          rw [h1] at h2
          simp only at h2
          have hlb : c.latMin ≤ memLat c rand (k0 + m0) := by unfold memLat; omega
          have hub : c.latMax < c.latMin ∨ memLat c rand (k0 + m0) ≤ c.latMax := by
            by_cases h : c.latMax < c.latMin
            · exact .inl h
            · right
              unfold memLat
              have := Nat.mod_lt (rand (k0 + m0)) (show 0 < c.latMax - c.latMin + 1 by omega)
              omega
          refine ⟨by omega, ?_⟩
          by_cases hm : last + 1 ≤ k + 1 + memLat c rand (k0 + m0)
          · rcases hub with h | h
            · exact .inr (.inl h)
            · left; omega
          · right; right; left; exact ⟨rfl, by omega⟩
        | succ m =>
          simp only [List.getElem?_cons_succ] at h1 h2
          obtain ⟨j1, j2⟩ := i4 m k w t w' h1 h2
          refine ⟨j1, ?_⟩
          rcases j2 with h | h | ⟨h, h'⟩ | ⟨t', w'', h, h', h''⟩
          · exact .inl h
          · exact .inr (.inl h)
          · right; right; right
            subst h
            exact ⟨_, _, by omega, rfl, h'⟩
          · right; right; right
            refine ⟨t', w'', by omega, ?_, h''⟩
            rw [show m + 1 - 1 = (m - 1) + 1 by omega, List.getElem?_cons_succ]
            exact h'
  obtain ⟨k1, k2, k3, k4⟩ := key reads 0 0
  refine ⟨k1, k3, ?_⟩
  intro m k w t w' h1 h2
  obtain ⟨j1, j2⟩ := k4 m k w t w' h1 h2
  refine ⟨j1, ?_⟩
  rcases j2 with h | h | ⟨h, h'⟩ | h
  · exact .inl h
  · exact .inr (.inl h)
  · omega
  · exact .inr (.inr h)

/-- C46: with equal minimum and maximum `L`, every response is exactly `L` + 1 cycles after its request. -/
theorem C46_fixed_latency (c : MemCfg) (heq : c.latMin = c.latMax) (init : Nat → Option Nat) (rand : Nat → Nat) (k0 : Nat) (cycles : List MemIn) :
    memResponses c init (fun m => memLat c rand (k0 + m)) cycles =
      (readsFrom c (wordAt c init) [] cycles).map (fun q => (q.1 + c.latMin + 1, q.2)) := by
  have hlat : ∀ k, memLat c rand k = c.latMin := by intro k; simp [memLat, heq, Nat.mod_one]
  unfold memResponses
  have hord : ∀ (l past : List MemIn), ((readsFrom c (wordAt c init) past l).map Prod.fst).Pairwise (· < ·) := by
    intro l
    induction l with
    | nil => intro past; simp [readsFrom]
    | cons i r ih =>
      intro past
      rw [readsFrom]
      split
      · simp only [List.singleton_append, List.map_cons, List.pairwise_cons]
        refine ⟨?_, ih _⟩
        intro t ht
        obtain ⟨p, hp, rfl⟩ := List.mem_map.1 ht
        have := readsFrom_after c _ _ _ p hp
        simpa using this
      · exact ih _
  have key : ∀ (l : List (Nat × LogicArray)) m last, (l.map Prod.fst).Pairwise (· < ·) → (∀ q ∈ l, last ≤ q.1 + c.latMin) →
      responsesFrom (fun m => memLat c rand (k0 + m)) m last l = l.map (fun q => (q.1 + c.latMin + 1, q.2)) := by
    intro l
    induction l with
    | nil => intro m last _ _; rfl
    | cons q r ih =>
      intro m last hp hl
      rw [List.map_cons, List.pairwise_cons] at hp
      have h0 := hl q (by simp)
      simp only [responsesFrom, List.map_cons]
      rw [show max (last + 1) (q.1 + 1 + memLat c rand (k0 + m)) = q.1 + c.latMin + 1 by rw [hlat]; omega, ih _ _ hp.2]
      intro p hpm
      have := hp.1 p.1 (List.mem_map_of_mem hpm)
      omega
  exact key _ _ _ (hord _ _) (fun q _ => Nat.zero_le _)

/-- C45: a read in the cycle after `pre` is answered with the word then at that address: byte by byte the last one written with its
byte enable set in `pre`, or else the initial one; all X if nothing is known of that address. -/
theorem C45_coherent (c : MemCfg) (hc : SingleMem c) (rand : Nat → Nat) (init : Nat → Option Nat) (k0 : Nat) (s : Sim MemIn MemOut)
    (hs : MemFresh c init k0 s.out) (hcl : ∀ i ∈ s.rest, MemClean c i) (pre post : List MemIn) (i : MemIn)
    (hsp : s.rest = pre ++ i :: post) (hrd : memReads c i = true) :
    let r := memRespond c rand s
    ∃ t, pre.length + 1 + c.latMin + 1 ≤ t ∧ ∀ q, r.1[t]? = some q →
      q.1.readdata = wordAt c init pre (bitsToNat i.address) ∧ (c.hasRdv = true → q.1.readdatavalid = .one) := by
  intro r
  obtain ⟨h1, -, -⟩ := C46_responses c hc rand init k0 s hs hcl
  obtain ⟨o1, o2, o3⟩ := C46_order_and_latency c init rand k0 s.rest
  have hmem : readsFrom c (wordAt c init) [] s.rest = readsFrom c (wordAt c init) [] pre ++
      (pre.length + 1, wordAt c init pre (bitsToNat i.address)) :: readsFrom c (wordAt c init) (pre ++ [i]) post := by
    rw [hsp, readsFrom_append, readsFrom, if_pos hrd]
    rfl
  obtain ⟨m, hm⟩ : ∃ m, (readsFrom c (wordAt c init) [] s.rest)[m]? = some (pre.length + 1, wordAt c init pre (bitsToNat i.address)) := by
    refine ⟨(readsFrom c (wordAt c init) [] pre).length, ?_⟩
    rw [hmem, List.getElem?_append_right (Nat.le_refl _), Nat.sub_self]
    rfl
  have hd : ∃ t w', (memResponses c init (fun m => memLat c rand (k0 + m)) s.rest)[m]? = some (t, w') := by
    have hl : (memResponses c init (fun m => memLat c rand (k0 + m)) s.rest).length = (readsFrom c (wordAt c init) [] s.rest).length :=
      responsesFrom_length _ _ _ _
    have hlt := (List.getElem?_eq_some_iff.1 hm).1
    exact ⟨_, _, by rw [List.getElem?_eq_getElem (by omega)]⟩
  obtain ⟨t, w', hd⟩ := hd
  have hw : w' = wordAt c init pre (bitsToNat i.address) := by
    have e1 := congrArg (·[m]?) o1
    simp only [List.getElem?_map] at e1
    rw [hm, hd] at e1
    simpa using e1
  have hge := (o3 m _ _ t w' hm hd).1
  refine ⟨t, by omega, ?_⟩
  intro q hq
  have hdm : (t, w') ∈ memResponses c init (fun m => memLat c rand (k0 + m)) s.rest := List.mem_of_getElem? hd
  obtain ⟨g1, g2⟩ := h1 t q (by omega) hq
  rw [← hw]
  refine ⟨g1 w' hdm, fun hrdv => ?_⟩
  rcases g2 hrdv with h | h
  · exact h.1
  · exact absurd hdm (h.2 w')

/-- C45, the back door: the dictionary of the memory holds exactly those words. -/
theorem C45_back_door (c : MemCfg) (hc : SingleMem c) (rand : Nat → Nat) (init : Nat → Option Nat) (k0 : Nat) (s : Sim MemIn MemOut)
    (hs : MemFresh c init k0 s.out) (hcl : ∀ i ∈ s.rest, MemClean c i) :
    ∃ s', (memRespond c rand s).2 = .blocked s' ∧ ∀ a,
      (memKnown c init s.rest a = false → s'.out.mem a = none) ∧
      (memKnown c init s.rest a = true → s'.out.mem a = some (leVal ((List.range (c.width / 8)).map (lastByte c init s.rest a)))) := by
  obtain ⟨-, -, s', h3, -, h5⟩ := memRespond_run c rand hc init k0 s.rest [] s.phase s.out s.prev s.cur (memInv_init c rand init k0 _ hs) hcl
  refine ⟨s', h3, fun a => ?_⟩
  have := (memInv_run c rand hc init k0 s.out hs s.rest hcl).mem a
  rw [← h5] at this
  rw [this]
  constructor <;> intro h <;> simp [h]

/-- What `wordAt` means in the simplest cases: a word never written and not initialised is all X ... -/
theorem C45_unknown (c : MemCfg) (init : Nat → Option Nat) (past : List MemIn) (a : Nat) (h0 : init a = none)
    (hw : ∀ i ∈ past, memWrites c i = true → bitsToNat i.address ≠ a) : wordAt c init past a = List.replicate c.width .x := by
  have : memKnown c init past a = false := by
    unfold memKnown
    rw [h0, Option.isSome_none, Bool.false_or, List.any_eq_false]
    intro i hi h
    simp at h
    exact hw i hi h.1 h.2
  simp [wordAt, this]

/-- ... and a word last written with all byte enables set is the data of that write. -/
theorem C45_last_write (c : MemCfg) (hc : SingleMem c) (init : Nat → Option Nat) (before after : List MemIn) (i : MemIn) (a : Nat)
    (hw : memWrites c i = true) (ha : bitsToNat i.address = a) (hcl : MemClean c i)
    (hbe : c.beW = none ∨ ∀ j < c.width / 8, (bitsToNat i.byteenable).testBit j = true)
    (haft : ∀ k ∈ after, memWrites c k = true → bitsToNat k.address ≠ a) :
    wordAt c init (before ++ i :: after) a = natToBits c.width (bitsToNat i.writedata) := by
  have hk : memKnown c init (before ++ i :: after) a = true := by
    simp [memKnown, hw, ha]
  have hd : bitsToNat i.writedata < 256 ^ (c.width / 8) := by
    rw [pow256, ← hc.bytes, ← (hcl.2 hw).2.2.1]; exact bitsToNat_lt _
  rw [wordAt, hk, if_pos rfl]
  congr 1
  symm
  apply eq_leVal _ _ _ hd
  intro j hj
  unfold lastByte
  have hnone : after.reverse.findSome? (wroteByte c a j) = none := by
    rw [List.findSome?_eq_none_iff]
    intro k hkm
    apply wroteByte_none
    by_cases h1 : memWrites c k = true
    · right; exact haft k (by simpa using hkm) h1
    · left; simpa using h1
  have hi : wroteByte c a j i = some (byteOf (bitsToNat i.writedata) j) := by
    unfold wroteByte
    rcases hbe with h | h
    · simp [hw, ha, h]
    · simp [hw, ha, h j hj]
  rw [List.reverse_append, List.reverse_cons, List.append_assoc, List.findSome?_append, hnone]
  simp [hi]

/-! A 16-bit memory with byte enables, latency 1 to 3: write 0xbbaa at 4, then 0x__cc with only the low byte enabled, then read it, and
read address 6. -/

def exMemCfg : MemCfg := { width := 16, beW := some 2, latMin := 1, latMax := 3 }
def exMemOut : MemOut := ⟨[], .zero, .zero, fun _ => none, [], 0⟩
def exMemIns : List MemIn :=
  [{ write := .one, address := natToBits 8 4, writedata := natToBits 16 0xbbaa, byteenable := natToBits 2 3 },
   { write := .one, address := natToBits 8 4, writedata := natToBits 16 0xddcc, byteenable := natToBits 2 1 },
   { read := .one, address := natToBits 8 4 }, { read := .one, address := natToBits 8 6 }, {}, {}, {}, {}]

example : SingleMem exMemCfg := ⟨rfl, .inl rfl, fun _ => rfl, fun _ => rfl, by decide⟩

/-- burstcount without readdatavalid: reads are single -/
example : SingleMem { exMemCfg with hasBurst := true, hasRdv := false, hasWritedata := false } := ⟨rfl, .inr ⟨rfl, rfl⟩, fun _ => rfl, fun _ => rfl, by decide⟩
example : MemFresh exMemCfg (fun _ => none) 0 exMemOut := ⟨rfl, by simp, rfl, rfl⟩
example : memInit exMemCfg (fun _ => none) exMemOut = .ok exMemOut := rfl
example : ∀ i ∈ exMemIns, MemClean exMemCfg i := by
  intro i hi
  simp only [exMemIns, List.mem_cons, List.not_mem_nil, or_false] at hi
  rcases hi with rfl | rfl | rfl | rfl | rfl | rfl | rfl | rfl <;> exact ⟨by decide, by decide⟩
example : memResponses exMemCfg (fun _ => none) (fun m => memLat exMemCfg (fun k => k + 1) m) exMemIns =
    [(6, natToBits 16 0xbbcc), (8, List.replicate 16 .x)] := by decide +kernel
example : ((memRespond exMemCfg (fun k => k + 1) ⟨.mid, exMemOut, {}, {}, exMemIns⟩).1.map (fun q => (q.1.readdatavalid, q.1.readdata))) =
    [(.zero, []), (.zero, []), (.zero, []), (.zero, []), (.zero, []), (.zero, []), (.one, natToBits 16 0xbbcc), (.zero, natToBits 16 0xbbcc)] := by decide +kernel

/-! ### C49 -/

/-- C49 is false of the code: an instance constructed without properties uses those of another one constructed later. -/
theorem C49_violated : avlClass [{}] = {} ∧ avlClass [{}, { readLatency := some 7 }] = { readLatency := 7 } := by decide

/-- C49, what happens instead: every instance uses, for each property, the value given last by any construction. -/
theorem C49_last_given (history : List AvlGiven) :
    (avlClass history).readLatency = (history.reverse.findSome? (·.readLatency)).getD 1 ∧
    (avlClass history).writeBurstWaitReq = (history.reverse.findSome? (·.writeBurstWaitReq)).getD true ∧
    (avlClass history).maxWaitReqLen = (history.reverse.findSome? (·.maxWaitReqLen)).getD 4 := by
  induction history using List.reverseRecOn with
  | nil => exact ⟨rfl, rfl, rfl⟩
  | append_singleton l g ih =>
    obtain ⟨i1, i2, i3⟩ := ih
    have : avlClass (l ++ [g]) = avlConstruct (avlClass l) g := by simp [avlClass, List.foldl_append]
    rw [this]
    simp only [List.reverse_append, List.reverse_cons, List.reverse_nil, List.nil_append, List.singleton_append, List.findSome?_cons, avlConstruct, i1, i2, i3]
    refine ⟨?_, ?_, ?_⟩
    · cases g.readLatency <;> rfl
    · cases g.writeBurstWaitReq <;> rfl
    · cases g.maxWaitReqLen <;> rfl

/-- C49, proved part: constructions that give no properties do not affect any instance. Missing: those that do (`C49_violated`). -/
theorem C49_not_given_partial (history more : List AvlGiven) (h : ∀ g ∈ more, g = {}) : avlClass (history ++ more) = avlClass history := by
  unfold avlClass
  rw [List.foldl_append]
  induction more with
  | nil => rfl
  | cons g r ih =>
    rw [h g (by simp), List.foldl_cons]
    exact ih (fun q hq => h q (by simp [hq]))

end CocotbBus
