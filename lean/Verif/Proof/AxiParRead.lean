import Verif.Proof.AxiPar

/-! # Reads of an AXI4 master while the memory changes -/

namespace CocotbBus
open Spec Coro

/-! ### The bytes of a burst -/

/-- a byte is in one beat only -/
theorem inBeat_unique {sz a len n n' b : Nat} {burst : AxiBurst} (hsz : 0 < sz) (hb : burst = .incr ∨ (burst = .wrap ∧ a % sz = 0)) (hn : n < len) (hn' : n' < len)
    (h : InBeat sz burst a len n b) (h' : InBeat sz burst a len n' b) : n = n' := by
  obtain ⟨h1, h2⟩ := h
  obtain ⟨h1', h2'⟩ := h'
  have hq : ∀ x, x ≤ b → b < alignedAddr sz x + sz → b / sz = x / sz := by
    intro x hx1 hx2
    unfold alignedAddr at hx2
    have : x / sz * sz ≤ x := Nat.div_mul_le_self _ _
    exact Nat.div_eq_of_lt_le (by omega) (by rw [Nat.succ_mul]; exact hx2)
  have e := hq _ h1 h2
  have e' := hq _ h1' h2'
  rw [e] at e'
  rcases hb with rfl | ⟨rfl, ha⟩
  · have hx : ∀ n, beatAddr sz .incr a len n / sz = a / sz + n := by
      intro n
      unfold beatAddr
      simp only
      split
      · rename_i h; rw [h]; rfl
      · unfold alignedAddr
        rw [← Nat.add_mul, Nat.mul_div_cancel _ hsz]
    rw [hx, hx] at e'
    omega
  · have hx : ∀ n, beatAddr sz .wrap a len n = beatAddr sz .wrap a len n / sz * sz := by
      intro n
      have := wrap_aligned sz a len n ha
      exact (Nat.div_mul_cancel (Nat.dvd_of_mod_eq_zero this)).symm
    have he : beatAddr sz .wrap a len n = beatAddr sz .wrap a len n' := by rw [hx n, hx n', e']
    unfold beatAddr at he
    simp only at he
    have he := Nat.add_left_cancel he
    have key : ∀ n n', n ≤ n' → n' < len → (a - a / (sz * len) * (sz * len) + n * sz) % (sz * len) = (a - a / (sz * len) * (sz * len) + n' * sz) % (sz * len) → n = n' := by
      intro n n' hle hn' he
      have hd := Nat.sub_mod_eq_zero_of_mod_eq he.symm
      have hs : a - a / (sz * len) * (sz * len) + n' * sz - (a - a / (sz * len) * (sz * len) + n * sz) = sz * (n' - n) := by
        rw [Nat.mul_sub, Nat.mul_comm sz n', Nat.mul_comm sz n]
        omega
      rw [hs] at hd
      have hlt : sz * (n' - n) < sz * len := Nat.mul_lt_mul_of_pos_left (by omega) hsz
      rw [Nat.mod_eq_of_lt hlt] at hd
      rcases Nat.mul_eq_zero.1 hd with h | h <;> omega
    rcases Nat.le_total n n' with h | h
    · exact key n n' h hn' he
    · exact (key n' n h hn he.symm).symm

/-- one memory for all beats -/
theorem exists_seen {sz a len : Nat} {burst : AxiBurst} (hsz : 0 < sz) (hb : burst = .incr ∨ (burst = .wrap ∧ a % sz = 0)) (view : Nat → Nat → Byte) :
    ∃ seen : Nat → Byte, ∀ n < len, ∀ b, InBeat sz burst a len n b → seen b = view n b := by
  classical
  refine ⟨fun b => if h : ∃ n, n < len ∧ InBeat sz burst a len n b then view h.choose b else 0, ?_⟩
  intro n hn b hb'
  have h : ∃ n, n < len ∧ InBeat sz burst a len n b := ⟨n, hn, hb'⟩
  simp only [dif_pos h]
  rw [inBeat_unique hsz hb h.choose_spec.1 hn h.choose_spec.2 hb']

/-! ### The read part of the memory -/

/-- the read it has accepted, after an edge -/
def arNext (c : AxCfg) (ar : Option (AddrReq × Nat)) (q : AddrOut × AxIn) : Option (AddrReq × Nat) :=
  if (arStream c).xfer (q.1, q.2) then some ((arStream c).payload q.1, 0)
  else match ar with
  | none => none
  | some (p, n) => if rFire q.2 then (if n + 1 = (p.decode c.dataBytes).2.2.2 then none else some (p, n + 1)) else some (p, n)

def arRun (c : AxCfg) (ar : Option (AddrReq × Nat)) (t : List (AddrOut × AxIn)) : Option (AddrReq × Nat) := t.foldl (arNext c) ar

/-- the beat at an edge is right -/
def BeatRight (c : AxCfg) (mem : Nat → Byte) (ar : Option (AddrReq × Nat)) (i : AxIn) : Prop :=
  rFire i = true → ∀ p n, ar = some (p, n) → BeatOf c (fun _ => 0) mem p n i ∧ (rLast c i = true ↔ n + 1 = (p.decode c.dataBytes).2.2.2)

/-- all beats are right, `V n` being the memory after `n` edges -/
def ServesR (c : AxCfg) (V : Nat → Nat → Byte) : Nat → Option (AddrReq × Nat) → List (AddrOut × AxIn) → Prop
  | _, _, [] => True
  | n, ar, q :: t => BeatRight c (V n) ar q.2 ∧ ServesR c V (n + 1) (arNext c ar q) t

theorem servesR_append (c : AxCfg) (V : Nat → Nat → Byte) (t u : List (AddrOut × AxIn)) : ∀ n ar,
    ServesR c V n ar (t ++ u) ↔ ServesR c V n ar t ∧ ServesR c V (n + t.length) (arRun c ar t) u := by
  induction t with
  | nil => intro n ar; simp [ServesR, arRun]
  | cons q t ih =>
    intro n ar
    rw [List.cons_append, ServesR, ServesR, ih, and_assoc, List.length_cons, show n + 1 + t.length = n + (t.length + 1) by omega]
    rfl

theorem arRun_append (c : AxCfg) (ar : Option (AddrReq × Nat)) (t u : List (AddrOut × AxIn)) : arRun c ar (t ++ u) = arRun c (arRun c ar t) u := List.foldl_append

theorem arRun_quiet (c : AxCfg) (t : List (AddrOut × AxIn)) (h : ∀ q ∈ t, (arStream c).xfer q = false) : arRun c none t = none := by
  induction t with
  | nil => rfl
  | cons q t ih =>
    have h1 : arNext c none q = none := by unfold arNext; rw [if_neg (by rw [h q (by simp)]; simp)]
    show arRun c (arNext c none q) t = none
    rw [h1]
    exact ih (fun q hq => h q (by simp [hq]))

/-- in the records of both tasks -/
theorem commit_read (c : AxCfg) (m : AxMem) : (m.commit c).ar = m.ar ∧ (m.commit c).code = m.code := by
  unfold AxMem.commit
  split
  · exact ⟨rfl, rfl⟩
  · simp only
    split <;> exact ⟨rfl, rfl⟩

theorem axStep_readPart (c : AxCfg) (m : AxMem) (q : AxAll × AxIn) : (m.step c q).ar = arNext c m.ar (q.1.2, q.2) ∧ (m.step c q).code = m.code := by
  unfold AxMem.step
  rw [(commit_read c _).1, (commit_read c _).2]
  exact ⟨rfl, rfl⟩

theorem servesR_of_serves (c : AxCfg) (V : Nat → Nat → Byte) (T : List (AxAll × AxIn)) : ∀ (n0 : Nat) (m : AxMem), m.code = allOkay →
    (∀ n ≤ T.length, V (n0 + n) = (AxMem.run c m (T.take n)).mem) → AxMem.Serves c m T → ServesR c V n0 m.ar (T.map (fun q => (q.1.2, q.2))) := by
  induction T with
  | nil => intro _ _ _ _ _; trivial
  | cons q T ih =>
    intro n0 m hm hV hs
    obtain ⟨e1, e2⟩ := axStep_readPart c m q
    refine ⟨?_, ?_⟩
    · intro hf p n hp
      obtain ⟨g1, g2, g3, g4⟩ := hs.1.2 hf p n hp
      rw [hm] at g2 g4
      have hV0 : V n0 = m.mem := hV 0 (Nat.zero_le _)
      refine ⟨⟨g2, g1, ?_⟩, g3⟩
      rw [hV0]
      exact g4
    · have := ih (n0 + 1) (m.step c q) (by rw [e2, hm]) (by
        intro n hn
        have := hV (n + 1) (by simpa using hn)
        rw [show n0 + (n + 1) = n0 + 1 + n by omega] at this
        rw [this]
        rfl) hs.2
      rw [e1] at this
      exact this

/-! ### The edges of the beats -/

def fireTimes : Nat → List (AddrOut × AxIn) → List Nat
  | _, [] => []
  | n, q :: t => if rFire q.2 then n :: fireTimes (n + 1) t else fireTimes (n + 1) t

theorem fireTimes_length (t : List (AddrOut × AxIn)) : ∀ n, (fireTimes n t).length = (rBeats t).length := by
  induction t with
  | nil => intro n; rfl
  | cons q t ih =>
    intro n
    unfold fireTimes
    have hb : rBeats (q :: t) = if rFire q.2 then q.2 :: rBeats t else rBeats t := by simp [rBeats, List.filter_cons]
    rw [hb]
    split <;> simp [ih]

theorem fireTimes_mem (t : List (AddrOut × AxIn)) : ∀ n e, e ∈ fireTimes n t → n ≤ e ∧ e < n + t.length := by
  induction t with
  | nil => intro n e h; cases h
  | cons q t ih =>
    intro n e h
    unfold fireTimes at h
    have key : e ∈ fireTimes (n + 1) t → n ≤ e ∧ e < n + (q :: t).length := by
      intro h
      have := ih (n + 1) e h
      simp only [List.length_cons]
      omega
    split at h
    · rcases List.mem_cons.1 h with rfl | h
      · simp
      · exact key h
    · exact key h

theorem fireTimes_sorted (t : List (AddrOut × AxIn)) : ∀ n, (fireTimes n t).Pairwise (· < ·) := by
  induction t with
  | nil => intro n; exact .nil
  | cons q t ih =>
    intro n
    unfold fireTimes
    split
    · refine .cons ?_ (ih _)
      intro e he
      have := fireTimes_mem t (n + 1) e he
      omega
    · exact ih _

theorem fireTimes_append (t u : List (AddrOut × AxIn)) : ∀ n, fireTimes n (t ++ u) = fireTimes n t ++ fireTimes (n + t.length) u := by
  induction t with
  | nil => intro n; rfl
  | cons q t ih =>
    intro n
    rw [List.cons_append, fireTimes, fireTimes, ih, List.length_cons, show n + 1 + t.length = n + (t.length + 1) by omega]
    split <;> rfl

/-- the beats of an answer up to the last one -/
theorem arRun_beats (c : AxCfg) (V : Nat → Nat → Byte) (p : AddrReq) (t : List (AddrOut × AxIn)) : ∀ n0 n, n < (p.decode c.dataBytes).2.2.2 →
    (∀ q ∈ t, (arStream c).xfer q = false) → ServesR c V n0 (some (p, n)) t → (∀ q ∈ t, rFire q.2 = true → rLast c q.2 = false) →
    arRun c (some (p, n)) t = some (p, n + (rBeats t).length) ∧ n + (rBeats t).length < (p.decode c.dataBytes).2.2.2 ∧
    ∀ j i e, (rBeats t)[j]? = some i → (fireTimes n0 t)[j]? = some e → BeatOf c (fun _ => 0) (V e) p (n + j) i := by
  induction t with
  | nil => intro n0 n hn _ _ _; exact ⟨rfl, hn, fun j i e h => by simp [rBeats] at h⟩
  | cons q t ih =>
    intro n0 n hn hq hs hl
    have q3 := hq q (by simp)
    have hq' : ∀ q ∈ t, (arStream c).xfer q = false := fun q hx => hq q (by simp [hx])
    have hl' : ∀ q ∈ t, rFire q.2 = true → rLast c q.2 = false := fun q hx => hl q (by simp [hx])
    have hrun : arRun c (some (p, n)) (q :: t) = arRun c (arNext c (some (p, n)) q) t := rfl
    have hx : (arStream c).xfer (q.1, q.2) = false := q3
    unfold fireTimes
    cases hf : rFire q.2 with
    | false =>
      have hst : arNext c (some (p, n)) q = some (p, n) := by simp [arNext, hx, hf]
      have hb : rBeats (q :: t) = rBeats t := by simp [rBeats, hf]
      have h2 := hs.2
      rw [hst] at h2
      rw [hrun, hst, hb]
      exact ih (n0 + 1) n hn hq' h2 hl'
    | true =>
      obtain ⟨b1, b2⟩ := hs.1 hf p n rfl
      have hne : ¬ n + 1 = (p.decode c.dataBytes).2.2.2 := by
        intro h
        have := b2.2 h
        rw [hl q (by simp) hf] at this
        cases this
      have hst : arNext c (some (p, n)) q = some (p, n + 1) := by simp [arNext, hx, hf, hne]
      have hb : rBeats (q :: t) = q.2 :: rBeats t := by simp [rBeats, hf]
      have h2 := hs.2
      rw [hst] at h2
      rw [hrun, hst, hb]
      obtain ⟨i1, i2, i3⟩ := ih (n0 + 1) (n + 1) (by omega) hq' h2 hl'
      refine ⟨by rw [i1]; simp; omega, by simp; omega, ?_⟩
      intro j i e hj he
      cases j with
      | zero =>
        have : q.2 = i := by simpa using hj
        subst this
        have : n0 = e := by simpa using he
        subst this
        exact b1
      | succ j =>
        have := i3 j i e (by simpa using hj) (by simpa using he)
        rwa [show n + 1 + j = n + (j + 1) by omega] at this

/-- a read while the memory changes -/
theorem axRead_seen (c : AxCfg) (hc : Standard c) (a : Nat) (ha : a < 2 ^ c.addrW) (length : Int) (size : Option Int) (burst : AxiBurst)
    (sync : Bool) (sz : Nat) (hl : Legal c a length size burst sz)
    (hwrap : WrapOk c sz burst a length.toNat) (hlite : c.full = false → sz = c.dataBytes ∧ burst = .incr ∧ length.toNat = 1)
    (s : Sim AxIn AddrOut) (hs : ReadReady sync s) (hg : ∀ i ∈ s.cur :: s.rest, GoodBeat c.dataBytes i) (V : Nat → Nat → Byte) (n0 : Nat) :
    let r := axiRead c a length size burst false sync s
    ServesR c V n0 none r.1 →
    (∃ s', r.2 = .blocked s') ∨
    (∃ (s' : Sim AxIn AddrOut) (words : List LogicArray) (τ : Nat → Nat), r.2 = .ok (.inl words) s' ∧ s'.phase = .edge ∧ s'.out.valid = .zero ∧ arRun c none r.1 = none ∧
      (∀ n < length.toNat, n0 ≤ τ n ∧ τ n < n0 + r.1.length) ∧ (∀ n m, n < m → m < length.toNat → τ n < τ m) ∧
      ReadSeen sz burst a length.toNat (fun n => V (τ n)) words) := by
  intro r hserve
  obtain ⟨h1, h2, h3, k, m, hk, hm, hW⟩ := Legal.facts hl hc ha
  have hr : r = axiReadRun c a length.toNat sz burst false sync s := by
    show axiRead c a length size burst false sync s = _
    rw [axiRead_legal c hc a length size burst false sync sz hl]
  have hspec := axiReadRun_spec c a length.toNat sz m burst false sync h1 h2 hm hW s hs.1 hs.2 hg
  simp only at hspec
  rw [← hr] at hspec
  obtain ⟨t1, t2, ar, e1, e2, e3, e4, e5⟩ := hspec
  have hdec := decode_addrReq c a length.toNat sz k burst h1 hk h3 hlite
  rcases e5 with ⟨e5, _⟩ | ⟨har, hone, -⟩
  · exact .inl (blocked_of_none e5)
  subst har
  by_cases hnone : result r = none
  · exact .inl (blocked_of_none hnone)
  right
  -- the trace: address phase, then the beats
  obtain ⟨pre, q, g1, g2, g3, g4⟩ := Stream.Request.xfers e2
  obtain ⟨t', ql, k1, k2, k3, k4⟩ := hone
  have hxf : ∀ x : AddrOut × AxIn, (arStream c).valid x.1 = false → (arStream c).xfer x = false := by
    intro x hx; simp [Stream.xfer, hx]
  have ht : r.1 = pre ++ q :: (t' ++ [ql]) := by
    rw [e1, g1, k1]
    simp
  have hrun0 := arRun_quiet c pre g2
  have hstep : arNext c none q = some (addrReq c a length.toNat sz burst, 0) := by
    have : (arStream c).xfer (q.1, q.2) = true := g3
    simp [arNext, this, g4]
  have hserve' := hserve
  rw [ht, servesR_append, hrun0, ServesR, hstep, servesR_append] at hserve'
  obtain ⟨-, -, hs1, hs2⟩ := hserve'
  have hlen0 : ((addrReq c a length.toNat sz burst).decode c.dataBytes).2.2.2 = length.toNat := by rw [hdec]
  obtain ⟨b1, b2, b3⟩ := arRun_beats c V (addrReq c a length.toNat sz burst) t' (n0 + pre.length + 1) 0 (by rw [hlen0]; exact h3)
    (fun x hx => hxf x (e3 x (by rw [k1]; simp [hx]))) hs1 k4
  rw [b1] at hs2
  rw [Nat.zero_add] at b1 b2 hs2
  obtain ⟨c1, c2⟩ := hs2.1 k2 _ _ rfl
  have hn := c2.1 k3
  rw [hlen0] at hn
  have hbeats : rBeats ((arStream c).after r.1) = rBeats t' ++ [ql.2] := by
    rw [e1, after_request e2, k1]
    have : rFire ql.2 = true := k2
    simp [rBeats, List.filter_append, this]
  -- the edges of the beats
  let times := fireTimes (n0 + pre.length + 1) (t' ++ [ql])
  have htimes : times = fireTimes (n0 + pre.length + 1) t' ++ [n0 + pre.length + 1 + t'.length] := by
    have hf : rFire ql.2 = true := k2
    show fireTimes _ (t' ++ [ql]) = _
    rw [fireTimes_append]
    simp [fireTimes, hf]
  have htl : times.length = length.toNat := by rw [htimes, List.length_append, fireTimes_length]; exact hn
  have hτ : ∀ n, n < length.toNat → times[n]? = some (times.getD n 0) := by
    intro n hn
    rw [List.getD_eq_getElem?_getD, List.getElem?_eq_getElem (by rw [htl]; exact hn)]
    rfl
  have hBeat : ∀ j i, (rBeats t' ++ [ql.2])[j]? = some i → BeatOf c (fun _ => 0) (V (times.getD j 0)) (addrReq c a length.toNat sz burst) j i := by
    intro j i hj
    have hjl : j < length.toNat := by
      have := (List.getElem?_eq_some_iff.1 hj).1
      simp at this
      omega
    have ht := hτ j hjl
    by_cases hj' : j < (rBeats t').length
    · rw [List.getElem?_append_left hj'] at hj
      rw [htimes, List.getElem?_append_left (by rw [fireTimes_length]; exact hj')] at ht
      have := b3 j i _ hj ht
      rw [Nat.zero_add] at this
      rw [htimes]
      exact this
    · have hj0 : j = (rBeats t').length := by omega
      rw [List.getElem?_append_right (by omega)] at hj
      rw [htimes, List.getElem?_append_right (by rw [fireTimes_length]; omega), fireTimes_length, hj0, Nat.sub_self] at ht
      have e := Option.some.inj ht
      rw [hj0, Nat.sub_self] at hj
      have : ql.2 = i := by simpa using hj
      rw [← this, hj0, htimes, ← e]
      exact c1
  have hresps : ∀ i ∈ rBeats ((arStream c).after r.1), bitsToNat i.rresp = 0 := by
    intro i hi
    rw [hbeats] at hi
    obtain ⟨j, hj, rfl⟩ := List.getElem_of_mem hi
    exact (hBeat j _ (List.getElem?_eq_getElem hj)).1.2.1
  have hans : AxiAnswers c.dataBytes sz burst a length.toNat (fun n => asBits (V (times.getD n 0))) ((rBeats ((arStream c).after r.1)).map (·.rdata)) := by
    rw [hbeats]
    refine ⟨by simp; omega, ?_⟩
    intro n v hv
    rw [List.getElem?_map, Option.map_eq_some_iff] at hv
    obtain ⟨i, hi, rfl⟩ := hv
    obtain ⟨_, z2, z3⟩ := hBeat n i hi
    rw [hdec] at z3
    exact ⟨z2, z3 rfl⟩
  have hfin : ∀ words, result r = some (readOutcome false words ((rBeats ((arStream c).after r.1)).map (fun i => bitsToNat i.rresp))) → result r = some (.ok (.inl words)) := by
    intro words h
    rw [h]
    unfold readOutcome
    rw [if_neg (by simp), List.find?_eq_none.2 (by
      intro x hx
      obtain ⟨i, hi, rfl⟩ := List.mem_map.1 hx
      simp [hresps i hi])]
  -- one memory, where the beats have different bytes
  have hfrozen : ∀ seen : Nat → Byte, (∀ n < length.toNat, ∀ b, InBeat sz burst a length.toNat n b → seen b = V (times.getD n 0) b) →
      AxiAnswers c.dataBytes sz burst a length.toNat (fun _ => asBits seen) ((rBeats ((arStream c).after r.1)).map (·.rdata)) := by
    intro seen h
    refine ⟨hans.1, ?_⟩
    intro n v hv
    have hn : n < length.toNat := by
      have := (List.getElem?_eq_some_iff.1 hv).1
      rw [hans.1] at this
      exact this
    obtain ⟨z1, z2⟩ := hans.2 n v hv
    refine ⟨z1, ?_⟩
    intro b hb
    rw [z2 b hb]
    show byteBits _ = byteBits _
    rw [h n hn b hb]
  have hres : ∃ words, result r = some (.ok (.inl words)) ∧ ReadSeen sz burst a length.toNat (fun n => V (times.getD n 0)) words := by
    cases burst with
    | incr =>
      obtain ⟨seen, hseen⟩ := exists_seen (len := length.toNat) (a := a) h2 (.inl rfl) (fun n => V (times.getD n 0))
      exact ⟨_, hfin _ (C59_incr c hc a ha length size false sync sz hl s hs hg (asBits seen) (hfrozen seen hseen) hnone), seen, rfl, hseen⟩
    | fixed => exact ⟨_, hfin _ (C59_fixed c hc a ha length size false sync sz hl s hs hg _ hans hnone), rfl⟩
    | wrap =>
      obtain ⟨w1, w2⟩ := hwrap rfl
      obtain ⟨seen, hseen⟩ := exists_seen (len := length.toNat) (a := a) h2 (.inr ⟨rfl, w1⟩) (fun n => V (times.getD n 0))
      refine ⟨_, hfin _ (C58_read_partial c hc a ha length size false sync sz hl w1 w2 s hs hg (asBits seen) (hfrozen seen hseen) hnone), seen, ?_, hseen⟩
      unfold readFrom
      simp only [wrap_aligned sz a length.toNat _ w1, Nat.sub_zero]
  obtain ⟨words, hres, hseen⟩ := hres
  obtain ⟨s', he1, he2⟩ := ended_of_result (r := r) hres (by intro e he; cases he)
  have hend := axiReadRun_end c a length.toNat sz burst false sync h1 h2 s hs s' (by rw [← hr]; exact he1)
  refine ⟨s', words, fun n => times.getD n 0, he2, hend.1, hend.2, ?_, ?_, ?_, hseen⟩
  · rw [ht, arRun_append, hrun0]
    show arRun c (arNext c none q) (t' ++ [ql]) = none
    rw [hstep, arRun_append, b1]
    show arNext c (some (addrReq c a length.toNat sz burst, (rBeats t').length)) ql = none
    have x3 : (arStream c).xfer (ql.1, ql.2) = false := hxf ql (e3 ql (by rw [k1]; simp))
    have hf : rFire ql.2 = true := k2
    have hl' : (rBeats t').length + 1 = ((addrReq c a length.toNat sz burst).decode c.dataBytes).2.2.2 := by rw [hlen0]; exact hn
    simp [arNext, x3, hf, hl']
  · intro n hn
    have := fireTimes_mem _ _ _ (List.mem_of_getElem? (hτ n hn))
    rw [ht]
    simp at this ⊢
    omega
  · intro n n' hlt hn'
    have hs := List.pairwise_iff_getElem.1 (fireTimes_sorted (t' ++ [ql]) (n0 + pre.length + 1)) n n' (by show n < times.length; omega) (by show n' < times.length; omega) hlt
    have e1 := (List.getElem?_eq_some_iff.1 (hτ n (by omega))).2
    have e2 := (List.getElem?_eq_some_iff.1 (hτ n' hn')).2
    show times.getD n 0 < times.getD n' 0
    rw [← e1, ← e2]
    exact hs

/-! ### The reading task -/

/-- the records of the read address channel -/
def arOf (t : List (AxAll × AxIn)) : List (AddrOut × AxIn) := t.map (fun q => (q.1.2, q.2))

/-- what a step of the reading task returned -/
def Saw (c : AxCfg) (V : Nat → Nat → Byte) (op : AxOp) (e0 e1 : Nat) (words : List LogicArray) : Prop :=
  ∃ τ : Nat → Nat, (∀ n < axBeats op, e0 ≤ τ n ∧ τ n < e1) ∧ (∀ n m, n < m → m < axBeats op → τ n < τ m) ∧ AxSeen c op (fun n => V (τ n)) words

theorem liteSeen {W a : Nat} {view : Nat → Nat → Byte} {words : List LogicArray} (h : ReadSeen W .incr a 1 view words) : ∃ d, words = [d] := by
  obtain ⟨seen, h, _⟩ := h
  exact ⟨_, h⟩

theorem axStep_seen (c : AxCfg) (hc : Standard c) (op : AxOp) (hop : AxOpOk c op) (hr : ReadStep op) (s : Sim AxIn AxAll) (hs : AxReady s)
    (hg : ∀ i ∈ s.cur :: s.rest, GoodBeat c.dataBytes i ∧ GoodResp i) (V : Nat → Nat → Byte) (n0 : Nat)
    (hserve : ServesR c V n0 none (arOf (axStep c op s).1)) :
    (∃ s', (axStep c op s).2 = .blocked s') ∨
    (∃ s' words, (axStep c op s).2 = .ok words s' ∧ AxReady s' ∧ arRun c none (arOf (axStep c op s).1) = none ∧ Saw c V op n0 (n0 + (axStep c op s).1.length) words) := by
  cases op with
  | write => exact hr.elim
  | liteWrite => exact hr.elim
  | read a len size burst sync =>
    obtain ⟨o1, o2, o5, o6⟩ := hop
    have h := axRead_seen c hc a o2 len size burst sync _ o5 o6 (by rw [o1]; intro h; cases h) ⟨s.phase, s.out.2, s.prev, s.cur, s.rest⟩ ⟨.inr hs.1, hs.2.2.2⟩ (fun i hi => (hg i hi).1) V n0
    have e : axStep c (.read a len size burst sync) s = Res.andThen (onRead (axiRead c a len size burst false sync) s) (fun d => pure (d.elim id (fun l => l.map Prod.fst))) := rfl
    rw [e] at hserve ⊢
    unfold onRead at hserve ⊢
    simp only at h hserve ⊢
    generalize axiRead c a len size burst false sync ⟨s.phase, s.out.2, s.prev, s.cur, s.rest⟩ = x at h hserve ⊢
    obtain ⟨t, e⟩ := x
    have harof : arOf (t.map (fun q => ((s.out.1, q.1), q.2))) = t := by simp [arOf, List.map_map, Function.comp_def]
    cases e with
    | ok u s' =>
      have e1 : Res.andThen (t.map (fun q => (((s.out.1, q.1), q.2) : AxAll × AxIn)), (End.ok u s').mapOut (fun o => ((s.out.1, o) : AxAll))) (fun d => pure (d.elim id (fun l => l.map Prod.fst)))
        = (t.map (fun q => ((s.out.1, q.1), q.2)), .ok (u.elim id (fun l => l.map Prod.fst)) ⟨s'.phase, (s.out.1, s'.out), s'.prev, s'.cur, s'.rest⟩) := by
        show (_ ++ [], _) = _
        rw [List.append_nil]
      rw [e1] at hserve ⊢
      simp only [harof] at hserve ⊢
      rcases h hserve with ⟨s'', h⟩ | ⟨s'', words, τ, h1, h2, h3, h4, h5, h6, h7⟩
      · cases h
      · cases h1
        refine .inr ⟨_, words, rfl, ⟨?_, hs.2.1, hs.2.2.1, h3⟩, h4, τ, ?_, h6, h7⟩
        · show s'.phase ≠ .ro
          rw [h2]
          simp
        · rw [List.length_map]
          exact h5
    | err e s' =>
      have e1 : Res.andThen (t.map (fun q => (((s.out.1, q.1), q.2) : AxAll × AxIn)), (End.err e s' : End AxIn AddrOut (List LogicArray ⊕ List (LogicArray × Nat))).mapOut (fun o => ((s.out.1, o) : AxAll)))
          (fun d => (pure (d.elim id (fun l => l.map Prod.fst)) : M AxIn AxAll (List LogicArray)))
        = (t.map (fun q => ((s.out.1, q.1), q.2)), .err e ⟨s'.phase, (s.out.1, s'.out), s'.prev, s'.cur, s'.rest⟩) := rfl
      rw [e1] at hserve
      simp only [harof] at hserve
      rcases h hserve with ⟨s'', h⟩ | ⟨s'', words, τ, h1, _⟩
      · cases h
      · cases h1
    | blocked s' => exact .inl ⟨_, rfl⟩
  | liteRead a sync =>
    obtain ⟨o1, o2⟩ := hop
    have hl : Legal c a 1 none .incr c.dataBytes := legal_single c hc a
    have h := axRead_seen c hc a o2 1 none .incr sync _ hl (fun h => by cases h) (fun _ => ⟨rfl, rfl, rfl⟩) ⟨s.phase, s.out.2, s.prev, s.cur, s.rest⟩ ⟨.inr hs.1, hs.2.2.2⟩ (fun i hi => (hg i hi).1) V n0
    have e : axStep c (.liteRead a sync) s = Res.andThen (onRead (liteRead c a sync) s) (fun d => pure [d]) := rfl
    rw [e] at hserve ⊢
    unfold onRead at hserve ⊢
    have e2 : ∀ u, liteRead c a sync u = Res.andThen (axiRead c a 1 none .incr false sync u) liteFirst := fun _ => rfl
    simp only [e2] at h hserve ⊢
    generalize axiRead c a 1 none .incr false sync ⟨s.phase, s.out.2, s.prev, s.cur, s.rest⟩ = x at h hserve ⊢
    obtain ⟨t, e⟩ := x
    have harof : arOf (t.map (fun q => ((s.out.1, q.1), q.2))) = t := by simp [arOf, List.map_map, Function.comp_def]
    have hcase : (∃ s'', e = .blocked s'') ∨ ∃ s'' d, e = .ok (.inl [d]) s'' ∧ s''.phase = .edge ∧ s''.out.valid = .zero ∧ arRun c none t = none ∧
        Saw c V (.liteRead a sync) n0 (n0 + t.length) [d] := by
      have hs' : ServesR c V n0 none t := by
        cases e with
        | ok u s' =>
          cases u with
          | inl l =>
            cases l with
            | nil =>
              have : ServesR c V n0 none (arOf (List.map (fun q => ((s.out.1, q.1), q.2)) (t ++ []))) := hserve
              rw [List.append_nil, harof] at this
              exact this
            | cons d l =>
              have : ServesR c V n0 none (arOf (List.map (fun q => ((s.out.1, q.1), q.2)) (t ++ []) ++ [])) := hserve
              rw [List.append_nil, List.append_nil, harof] at this
              exact this
          | inr l =>
            have : ServesR c V n0 none (arOf (List.map (fun q => ((s.out.1, q.1), q.2)) (t ++ []))) := hserve
            rw [List.append_nil, harof] at this
            exact this
        | err e s' =>
          have : ServesR c V n0 none (arOf (List.map (fun q => ((s.out.1, q.1), q.2)) t)) := hserve
          rw [harof] at this
          exact this
        | blocked s' =>
          have : ServesR c V n0 none (arOf (List.map (fun q => ((s.out.1, q.1), q.2)) t)) := hserve
          rw [harof] at this
          exact this
      rcases h hs' with ⟨s'', h⟩ | ⟨s'', words, τ, h1, h2, h3, h4, h5, h6, h7⟩
      · exact .inl ⟨s'', h⟩
      · obtain ⟨d, rfl⟩ := liteSeen h7
        exact .inr ⟨s'', d, h1, h2, h3, h4, τ, h5, h6, h7⟩
    rcases hcase with ⟨s'', rfl⟩ | ⟨s'', d, rfl, h2, h3, h4, h5⟩
    · exact .inl ⟨_, rfl⟩
    · right
      refine ⟨⟨s''.phase, (s.out.1, s''.out), s''.prev, s''.cur, s''.rest⟩, [d], rfl, ⟨?_, hs.2.1, hs.2.2.1, h3⟩, ?_, ?_⟩
      · show s''.phase ≠ .ro
        rw [h2]
        simp
      · show arRun c none (arOf (List.map (fun q => ((s.out.1, q.1), q.2)) (t ++ []) ++ [])) = none
        rw [List.append_nil, List.append_nil, harof]
        exact h4
      · show Saw c V _ n0 (n0 + (List.map (fun q : AddrOut × AxIn => (((s.out.1, q.1), q.2) : AxAll × AxIn)) (t ++ []) ++ []).length) _
        rw [List.append_nil, List.append_nil, List.length_map]
        exact h5
  | pause n =>
    have hrun : axStep c (.pause n) s = Res.andThen ((edges n : M AxIn AxAll Unit) s) (fun _ => pure []) := rfl
    rw [edges_run] at hrun
    by_cases hle : n ≤ s.rest.length
    · rw [if_pos hle] at hrun
      right
      have h1 : (axStep c (.pause n) s) = ((sampled n s).map (fun i => (s.out, i)), .ok [] (advance n s)) := by
        rw [hrun]
        show (_ ++ [], _) = _
        rw [List.append_nil]
      rw [h1]
      refine ⟨advance n s, [], rfl, ⟨advance_phase n s hs.1, ?_, ?_, ?_⟩, ?_, fun _ => 0, ?_, ?_, rfl⟩
      · rw [advance_out]; exact hs.2.1
      · rw [advance_out]; exact hs.2.2.1
      · rw [advance_out]; exact hs.2.2.2
      · apply arRun_quiet
        intro q hq
        simp only [arOf, List.map_map] at hq
        obtain ⟨i, _, rfl⟩ := List.mem_map.1 hq
        simp [Stream.xfer, arStream, hs.2.2.2]
      · intro n hn; cases hn
      · intro n m _ hm; cases hm
    · rw [if_neg hle] at hrun
      exact .inl ⟨advance n s, by rw [hrun]; rfl⟩

theorem axReader (c : AxCfg) (hc : Standard c) (V : Nat → Nat → Byte) (ops : List AxOp) : ∀ (s : Sim AxIn AxAll) (n0 : Nat), (∀ op ∈ ops, AxOpOk c op) → (∀ op ∈ ops, ReadStep op) →
    AxReady s → (∀ i ∈ s.cur :: s.rest, GoodBeat c.dataBytes i ∧ GoodResp i) → ServesR c V n0 none (arOf (axUse c ops s).2.1) →
    ((∃ s', (axUse c ops s).2.2 = .blocked s') ∨ (∃ s', (axUse c ops s).2.2 = .ok () s' ∧ (axUse c ops s).1.length = ops.length)) ∧
    ∀ k out, (axUse c ops s).1[k]? = some out → ∃ op e0 e1 words, ops[k]? = some op ∧ axEnd c ops s k = some e0 ∧ axEnd c ops s (k + 1) = some e1 ∧ out = .ok words ∧
      Saw c V op (n0 + e0) (n0 + e1) words := by
  induction ops with
  | nil =>
    intro s n0 _ _ _ _ _
    refine ⟨.inr ⟨s, rfl, rfl⟩, ?_⟩
    intro k out h
    simp [axUse] at h
  | cons op ops ih =>
    intro s n0 hops hrd hs hg hserve
    have hpre : ServesR c V n0 none (arOf (axStep c op s).1) := by
      rw [axUse_eq] at hserve
      generalize axStep c op s = X at hserve
      obtain ⟨t, e⟩ := X
      have happ : ∀ s', ServesR c V n0 none (arOf (t ++ (axUse c ops s').2.1)) → ServesR c V n0 none (arOf t) := by
        intro s' h
        unfold arOf at h
        rw [List.map_append, servesR_append] at h
        exact h.1
      cases e with
      | ok d s' => exact happ s' hserve
      | blocked s' => exact hserve
      | err e s' =>
        cases e with
        | axiProtocol n => exact happ s' hserve
        | _ => exact hserve
    rcases axStep_seen c hc op (hops op (by simp)) (hrd op (by simp)) s hs hg V n0 hpre with ⟨s', hb⟩ | ⟨s', words, he, hr, har, hsaw⟩
    · have hst : axStep c op s = ((axStep c op s).1, .blocked s') := by rw [← hb]
      have huse := axUse_blocked c op ops s _ s' hst
      rw [huse]
      refine ⟨.inl ⟨s', rfl⟩, ?_⟩
      intro k out h
      simp at h
    · have hst : axStep c op s = ((axStep c op s).1, endWith (.ok words) s') := by
        rw [show (endWith (.ok words) s' : End AxIn AxAll (List LogicArray)) = .ok words s' from rfl, ← he]
      have hy : ∀ e, (Except.ok words : Except PyErr (List LogicArray)) = .error e → ∃ n, e = .axiProtocol n := fun e h => by cases h
      have huse := axUse_cons c op ops s _ _ s' hst hy
      have hin := Good.end_inputs (axStep_good c op) (s := s) (s' := s') (a := .ok words) he
      rw [huse] at hserve ⊢
      have hserve' := hserve
      unfold arOf at hserve'
      rw [List.map_append, servesR_append] at hserve'
      have hs2 := hserve'.2
      rw [show List.map (fun q : AxAll × AxIn => (q.1.2, q.2)) (axStep c op s).1 = arOf (axStep c op s).1 from rfl, har, show (arOf (axStep c op s).1).length = (axStep c op s).1.length from List.length_map _] at hs2
      obtain ⟨i1, i2⟩ := ih s' (n0 + (axStep c op s).1.length) (fun op h => hops op (by simp [h])) (fun op h => hrd op (by simp [h])) hr (fun i hi => hg i (hin i hi)) hs2
      refine ⟨?_, ?_⟩
      · rcases i1 with ⟨u, h⟩ | ⟨u, h, h'⟩
        · exact .inl ⟨u, h⟩
        · exact .inr ⟨u, h, by simp [h']⟩
      · intro k out hk
        cases k with
        | zero =>
          have : out = .ok words := by simpa using hk.symm
          refine ⟨op, 0, (axStep c op s).1.length, words, rfl, axEnd_zero _ _ _, ?_, this, hsaw⟩
          rw [axEnd_cons c op ops s _ _ s' hst hy, axEnd_zero]
          rfl
        | succ k =>
          obtain ⟨op', e0, e1, words', j1, j2, j3, j4, j5⟩ := i2 k out (by simpa using hk)
          refine ⟨op', (axStep c op s).1.length + e0, (axStep c op s).1.length + e1, words', by simpa using j1, ?_, ?_, j4, ?_⟩
          · rw [axEnd_cons c op ops s _ _ s' hst hy, j2]; rfl
          · rw [axEnd_cons c op ops s _ _ s' hst hy, j3]; rfl
          · rw [← Nat.add_assoc, ← Nat.add_assoc]; exact j5

/-- the records of the reading task in those of both -/
theorem axPar_right (c : AxCfg) (wops rops : List AxOp) (s : Sim AxIn AxAll) :
    ∃ u, (axPar c wops rops s).trace.map (fun q => (q.1.2, q.2)) = arOf (axUse c rops s).2.1 ++ u := by
  have hj := joinTrace_right ((axUse c wops s).2.1.map (fun q => (q.1.1, q.2))) (axUse c wops s).2.2.sim.out.1 (axUse c rops s).2.2.sim.out.2 ((axUse c rops s).2.1.map (fun q => (q.1.2, q.2))) (by
    intro n q r hq hr
    rw [List.getElem?_map, Option.map_eq_some_iff] at hq hr
    obtain ⟨q', hq', rfl⟩ := hq
    obtain ⟨r', hr', rfl⟩ := hr
    exact good_agree (axUse_good c wops) (axUse_good c rops) s s ⟨rfl, rfl⟩ n q' r' hq' hr')
  exact ⟨_, hj⟩

/-! ### Bytes that do not change -/

theorem memWord_congr' {m m' : Nat → LogicArray} {a k : Nat} (h : ∀ j < k, m (a + j) = m' (a + j)) : memWord m a k = memWord m' a k := by
  unfold memWord
  rw [List.flatMap_def, List.flatMap_def]
  congr 1
  apply List.map_congr_left
  intro j hj
  exact h j (by simpa using hj)

/-- the bytes from the start address to the end of the last beat -/
theorem incr_inBeat {sz a len x : Nat} (hsz : 0 < sz) (h1 : a ≤ x) (h2 : x < a + len * sz - a % sz) : ∃ n < len, InBeat sz .incr a len n x := by
  have hmod : ∀ x, x % sz < sz ∧ x / sz * sz + x % sz = x := fun x => ⟨Nat.mod_lt _ hsz, by rw [Nat.mul_comm]; exact Nat.div_add_mod x sz⟩
  have ha := hmod a
  have hb := hmod x
  have hlt : x / sz < a / sz + len := by
    rw [Nat.div_lt_iff_lt_mul hsz, Nat.add_mul]
    omega
  have hge : a / sz ≤ x / sz := Nat.div_le_div_right h1
  have hbase : (a / sz + (x / sz - a / sz)) * sz = x / sz * sz := by rw [show a / sz + (x / sz - a / sz) = x / sz by omega]
  refine ⟨x / sz - a / sz, by omega, ?_⟩
  generalize hn : x / sz - a / sz = n at *
  unfold InBeat beatAddr
  simp only
  by_cases h0 : n = 0
  · rw [if_pos h0]
    rw [h0, Nat.add_zero] at hbase
    unfold alignedAddr
    omega
  · rw [if_neg h0]
    unfold alignedAddr
    rw [← Nat.add_mul, Nat.mul_div_cancel _ hsz, hbase]
    omega

/-- the bytes of the words of a read are those of its beats -/
theorem readFrom_congr {sz a len : Nat} (hsz : 0 < sz) (burst : AxiBurst) {m m' : Nat → Byte} (h : ∀ n < len, ∀ b, InBeat sz burst a len n b → m b = m' b) :
    readFrom sz burst a len m = readFrom sz burst a len m' := by
  have hmod : ∀ x, x % sz < sz ∧ x / sz * sz + x % sz = x := fun x => ⟨Nat.mod_lt _ hsz, by rw [Nat.mul_comm]; exact Nat.div_add_mod x sz⟩
  have hword : ∀ i < len, memWord (asBits m) (beatAddr sz burst a len i) (sz - beatAddr sz burst a len i % sz) =
      memWord (asBits m') (beatAddr sz burst a len i) (sz - beatAddr sz burst a len i % sz) := by
    intro i hi
    apply memWord_congr'
    intro j hj
    show byteBits _ = byteBits _
    rw [h i hi]
    refine ⟨Nat.le_add_right _ _, ?_⟩
    unfold alignedAddr
    have := hmod (beatAddr sz burst a len i)
    omega
  cases burst with
  | incr =>
    unfold readFrom
    simp only
    apply List.map_congr_left
    intro i hi
    rw [List.mem_range] at hi
    apply memWord_congr'
    intro j hj
    show byteBits _ = byteBits _
    obtain ⟨n, hn, hx⟩ := incr_inBeat (a := a) (len := len) (x := a + i * sz + j) hsz (by omega) (by
      have ha := hmod a
      have h1 : (i + 1) * sz ≤ len * sz := Nat.mul_le_mul_right _ hi
      rw [Nat.add_mul, Nat.one_mul] at h1
      by_cases hl : i + 1 = len
      · rw [if_pos hl] at hj
        omega
      · have h2 : (i + 1 + 1) * sz ≤ len * sz := Nat.mul_le_mul_right _ (by omega)
        rw [Nat.add_mul, Nat.add_mul, Nat.one_mul] at h2
        rw [if_neg hl] at hj
        omega)
    rw [h n hn _ hx]
  | fixed => exact List.map_congr_left (fun i hi => hword i (by simpa using hi))
  | wrap => exact List.map_congr_left (fun i hi => hword i (by simpa using hi))

/-- a read all of whose bytes are those of one memory -/
theorem readSeen_const {sz a len : Nat} (hsz : 0 < sz) (burst : AxiBurst) {view : Nat → Nat → Byte} {m : Nat → Byte} {words : List LogicArray}
    (h : ReadSeen sz burst a len view words) (hv : ∀ n < len, ∀ b, InBeat sz burst a len n b → view n b = m b) : words = readFrom sz burst a len m := by
  cases burst with
  | incr =>
    obtain ⟨seen, rfl, h2⟩ := h
    exact readFrom_congr hsz .incr (fun n hn b hb => by rw [h2 n hn b hb, hv n hn b hb])
  | wrap =>
    obtain ⟨seen, rfl, h2⟩ := h
    exact readFrom_congr hsz .wrap (fun n hn b hb => by rw [h2 n hn b hb, hv n hn b hb])
  | fixed =>
    have h : words = _ := h
    rw [h]
    unfold readFrom
    simp only
    apply List.map_congr_left
    intro i hi
    rw [List.mem_range] at hi
    apply memWord_congr'
    intro j hj
    show byteBits _ = byteBits _
    rw [hv i hi (a + j)]
    refine ⟨Nat.le_add_right _ _, ?_⟩
    show a + j < a / sz * sz + sz
    have h1 := Nat.mod_lt a hsz
    have h2 : a / sz * sz + a % sz = a := by rw [Nat.mul_comm]; exact Nat.div_add_mod a sz
    omega

theorem axSeen_const {c : AxCfg} (hc : Standard c) {op : AxOp} (hop : AxOpOk c op) (hr : ReadStep op) {view : Nat → Nat → Byte} {m : Nat → Byte} {words : List LogicArray}
    (h : AxSeen c op view words) (hv : ∀ n < axBeats op, ∀ b, axByte c op b → view n b = m b) : words = axReturns c op m := by
  have hW : 0 < c.dataBytes := by
    obtain ⟨⟨j, _, hj⟩, _⟩ := hc
    rw [hj]
    exact Nat.two_pow_pos _
  cases op with
  | write => exact hr.elim
  | liteWrite => exact hr.elim
  | pause => exact h
  | read a len size burst sync =>
    obtain ⟨_, ha, hl, _⟩ := hop
    obtain ⟨_, h2, _⟩ := Legal.facts hl hc ha
    exact readSeen_const h2 burst h (fun n hn b hb => hv n hn b ⟨n, hn, hb⟩)
  | liteRead a sync =>
    refine readSeen_const hW .incr h (fun n hn b hb => hv n hn b ?_)
    have : n = 0 := by omega
    subst this
    exact hb

/-! ### Bytes that are not written -/

theorem storeValues_frame {sz : Nat} (hsz : 0 < sz) (burst : AxiBurst) (a len : Nat) (be : List (Option Nat)) (x : Nat) : ∀ (v : List Nat) (i : Nat) (m : Nat → Byte),
    (∀ n, i ≤ n → n < i + v.length → ¬ InBeat sz burst a len n x) → storeValues sz burst a len be i v m x = m x := by
  intro v
  induction v with
  | nil => intro i m _; rfl
  | cons v r ih =>
    intro i m h
    rw [storeValues, ih (i + 1) _ (fun n h1 h2 => h n (by omega) (by rw [List.length_cons]; omega))]
    unfold storeValue
    rw [if_neg]
    rintro ⟨h1, h2, _⟩
    refine h i (Nat.le_refl i) (by rw [List.length_cons]; omega) ⟨h1, ?_⟩
    unfold alignedAddr
    have e1 := Nat.mod_lt (beatAddr sz burst a len i) hsz
    have e2 : beatAddr sz burst a len i / sz * sz + beatAddr sz burst a len i % sz = beatAddr sz burst a len i := by rw [Nat.mul_comm]; exact Nat.div_add_mod _ _
    omega

theorem writeTo_frame {sz : Nat} (hsz : 0 < sz) (burst : AxiBurst) (a : Nat) (v : List Nat) (be : List (Option Nat)) (x : Nat) (m : Nat → Byte)
    (h : ¬ ∃ n < v.length, InBeat sz burst a v.length n x) : writeTo sz burst a v be m x = m x := by
  have hs := storeValues_frame hsz burst a v.length be x v 0 m (fun n _ h2 h3 => h ⟨n, by omega, h3⟩)
  cases burst with
  | fixed => exact hs
  | wrap => exact hs
  | incr =>
    unfold writeTo
    simp only
    rw [if_neg]
    rintro ⟨h1, h2, _⟩
    exact h (incr_inBeat hsz h1 h2)

/-- a step changes only bytes addressed by it -/
theorem axAfter_frame {c : AxCfg} (hc : Standard c) {op : AxOp} (hop : AxOpOk c op) {x : Nat} (h : ¬ axByte c op x) (m : Nat → Byte) : axAfter c op m x = m x := by
  have hW : 0 < c.dataBytes := by
    obtain ⟨⟨j, _, hj⟩, _⟩ := hc
    rw [hj]
    exact Nat.two_pow_pos _
  cases op with
  | read => rfl
  | liteRead => rfl
  | pause => rfl
  | write a v size burst be al dl sync =>
    obtain ⟨_, ha, _, _, hl, _⟩ := hop
    obtain ⟨_, h2, _⟩ := Legal.facts hl hc ha
    exact writeTo_frame h2 burst a v be x m h
  | liteWrite a v be al dl sync =>
    refine writeTo_frame hW .incr a [v] [be] x m ?_
    rintro ⟨n, hn, h3⟩
    have : n = 0 := by
      have : n < 1 := hn
      omega
    subst this
    exact h h3

end CocotbBus
