import Verif.Proof.AxiManyResp

/-! # The calls waiting for their data -/

namespace CocotbBus
open Spec Coro

/-- receiving the data of a read -/
theorem axiReadData_run (c : AxCfg) (a len size m : Nat) (hsz : 0 < size) (hm : 0 < m) (hW : c.dataBytes = size * m) (burst : AxiBurst) (s : Sim AxIn AddrOut)
    (hs : s.phase ≠ .ro) (hg : ∀ i ∈ s.cur :: s.rest, GoodBeat c.dataBytes i) :
    let r := axiReadData c a len size burst s
    ((∃ s', r.2 = .blocked s') ∧ ∀ p ∈ r.1, rFire p.2 = true → rLast c p.2 = false) ∨
    (∃ t' ql s' sl o, r.1 = t' ++ [ql] ∧ rFire ql.2 = true ∧ rLast c ql.2 = true ∧ (∀ p ∈ t', rFire p.2 = true → rLast c p.2 = false) ∧ s'.phase = .edge ∧
      r.2 = endWith (axiFinish a len size burst false ⟨sl, (rBeats r.1).map (fun i => bitsToNat i.rresp), o⟩) s' ∧
      axiSlices c.dataBytes size burst (a % c.dataBytes / size * size) ((rBeats r.1).map (·.rdata)) = .ok sl) := by
  intro r
  obtain ⟨ws, h1, h2, h3⟩ := rLoop_run c size m hsz hm hW burst s.rest s.phase s.out s.prev s.cur ⟨[], [], a % c.dataBytes / size * size⟩ (a / size % m)
    hs (Nat.mod_lt _ hm) (by simp only; rw [hW, div_mod_block]) hg
  have hst : (⟨s.phase, s.out, s.prev, s.cur, s.rest⟩ : Sim AxIn AddrOut) = s := rfl
  rw [hst] at h1 h3
  have hr : r = Res.andThen (loop (rBody c size burst) ⟨[], [], a % c.dataBytes / size * size⟩ s) (fun st => do
      awaitEdge
      ofExcept (axiFinish a len size burst false st)) := by
    show axiReadData c a len size burst s = _
    unfold axiReadData
    rw [bind_run]
  rcases h3 with ⟨st', s', a1, a2, a3, a4, a5, a6, sl, a7, a8, a9⟩ | ⟨s', a1, a2⟩
  · have hl : loop (rBody c size burst) ⟨[], [], a % c.dataBytes / size * size⟩ s = (ws.map (fun i => (s.out, i)), .ok st' s') := by rw [← h1, ← a1]
    rw [hl, andThen_ok] at hr
    cases hrest : s'.rest with
    | nil =>
      rw [bind_awaitEdge_nil _ _ hrest] at hr
      refine .inl ⟨⟨_, by rw [hr]⟩, ?_⟩
      rw [hr]
      simpa using h2
    | cons j rs =>
      rw [bind_awaitEdge_cons _ _ j rs hrest, a2] at hr
      have hfin : ∀ (e : Except PyErr (List LogicArray ⊕ List (LogicArray × Nat))) (z : Sim AxIn AddrOut), (ofExcept e z) = ([], endWith e z) := by
        intro e z
        cases e <;> rfl
      rw [hfin] at hr
      right
      have h1' : r.1 = ws.map (fun i => (s.out, i)) ++ [(s.out, s'.cur)] := by rw [hr]
      have hb : rBeats r.1 = fired (ws ++ [s'.cur]) := by
        have hm : (ws.map (fun i => (s.out, i))).map Prod.snd = ws := by simp [Function.comp_def]
        rw [h1', rBeats, fired, List.map_append, hm]
        rfl
      refine ⟨ws.map (fun i => (s.out, i)), (s.out, s'.cur), ⟨.edge, s.out, s'.cur, j, rs⟩, sl, st'.offset, h1', a4, a5, ?_, ?_, ?_, ?_⟩
      rotate_left 2
      · rw [hr]
        simp only
        congr 1
        rw [show rBeats (ws.map (fun i => (s.out, i)) ++ [(s.out, s'.cur)]) = fired (ws ++ [s'.cur]) by rw [← h1', hb]]
        congr 1
        cases st'
        simp_all
      · rw [hb]
        exact a7
      · intro q hq hf
        obtain ⟨i, hi, rfl⟩ := List.mem_map.1 hq
        exact h2 i hi hf
      · rfl
  · left
    have hl : loop (rBody c size burst) ⟨[], [], a % c.dataBytes / size * size⟩ s = (ws.map (fun i => (s.out, i)), .blocked s') := by rw [← h1, ← a1]
    rw [hl, andThen_blocked] at hr
    refine ⟨⟨s', by rw [hr]⟩, ?_⟩
    rw [hr]
    simpa using h2

theorem axiReadData_good (c : AxCfg) (a len size : Nat) (burst : AxiBurst) : Good (axiReadData c a len size burst) :=
  Good.bind (Good.loop _ (rBody_consumes _ _ _) (rBody_good _ _ _) _) fun _ => Good.bind Good.awaitEdge fun _ => Good.ofExcept _

theorem rJob_good (c : AxCfg) (op : AxOp) : Good (rJob c op) := by
  cases op with
  | read => exact Good.bind (Good.ofExcept _) fun _ => Good.bind (axiReadData_good _ _ _ _ _) fun _ => Good.pure _
  | liteRead => exact Good.bind (Good.ofExcept _) fun _ => Good.bind (axiReadData_good _ _ _ _ _) fun _ => Good.bind (liteFirst_good _) fun _ => Good.pure _
  | _ => exact Good.pure _

/-- what is made of the beats -/
theorem finish_seen (c : AxCfg) (a len sz m o : Nat) (hsz : 0 < sz) (hm : 0 < m) (hW : c.dataBytes = sz * m) (burst : AxiBurst)
    (hwrap : WrapOk c sz burst a len) (code : Nat → Nat) (view : Nat → Nat → Byte) (p : AddrReq) (hp : p.decode c.dataBytes = (a, sz, burst, len))
    (B : List AxIn) (hB : B.length = len) (hbeats : ∀ n i, B[n]? = some i → BeatOf c code (view n) p n i) (sl : List LogicArray)
    (hsl : axiSlices c.dataBytes sz burst (a % c.dataBytes / sz * sz) (B.map (·.rdata)) = .ok sl) :
    (∃ e, ((List.range len).map code).find? (· ≠ 0) = some e ∧
      axiFinish a len sz burst false ⟨sl, B.map (fun i => bitsToNat i.rresp), o⟩ = .error (.axiProtocol e)) ∨
    (((List.range len).map code).find? (· ≠ 0) = none ∧ ∃ words, axiFinish a len sz burst false ⟨sl, B.map (fun i => bitsToNat i.rresp), o⟩ = .ok (.inl words) ∧
      ReadSeen sz burst a len view words) := by
  have hresp : B.map (fun i => bitsToNat i.rresp) = (List.range len).map code := by
    apply List.ext_getElem (by simp [hB])
    intro n h1 h2
    simp only [List.getElem_map, List.getElem_range]
    exact (hbeats n _ (List.getElem?_eq_getElem (by simpa using h1))).1.2.1
  have hsl' := hsl
  rw [hW] at hsl'
  obtain ⟨g1, ws, g2, g3⟩ := axiReadWords_ok sz m a hsz hm burst _ (by
    intro v hv
    obtain ⟨i, hi, rfl⟩ := List.mem_map.1 hv
    obtain ⟨n, hn⟩ := List.getElem?_of_mem hi
    rw [← hW]
    exact (hbeats n i hn).2.1) sl hsl'
  rw [List.length_map, hB] at g1
  rw [axiFinish_eq a len sz burst false ⟨sl, _, o⟩ ws g2 g1, hresp]
  unfold readOutcome
  rw [if_neg (by simp)]
  cases hfind : ((List.range len).map code).find? (· ≠ 0) with
  | some e => exact .inl ⟨e, rfl, rfl⟩
  | none =>
    refine .inr ⟨rfl, ws, rfl, ?_⟩
    have hcode : ∀ n < len, code n = 0 := by
      intro n hn
      have := List.find?_eq_none.1 hfind (code n) (List.mem_map.2 ⟨n, List.mem_range.2 hn, rfl⟩)
      simpa using this
    have hans : AxiAnswers (sz * m) sz burst a len (fun n => asBits (view n)) (B.map (·.rdata)) := by
      refine ⟨by simp [hB], ?_⟩
      intro n v hv
      rw [List.getElem?_map, Option.map_eq_some_iff] at hv
      obtain ⟨i, hi, rfl⟩ := hv
      obtain ⟨_, z2, z3⟩ := hbeats n i hi
      rw [hp, hW] at z3
      rw [hW] at z2
      refine ⟨z2, z3 (hcode n ?_)⟩
      have := (List.getElem?_eq_some_iff.1 hi).1
      omega
    have hfrozen : ∀ seen : Nat → Byte, (∀ n < len, ∀ b, InBeat sz burst a len n b → seen b = view n b) →
        AxiAnswers (sz * m) sz burst a len (fun _ => asBits seen) (B.map (·.rdata)) := by
      intro seen h
      refine ⟨hans.1, ?_⟩
      intro n v hv
      have hn : n < len := by
        have := (List.getElem?_eq_some_iff.1 hv).1
        rw [hans.1] at this
        exact this
      obtain ⟨z1, z2⟩ := hans.2 n v hv
      refine ⟨z1, ?_⟩
      intro b hb
      rw [z2 b hb]
      show byteBits _ = byteBits _
      rw [h n hn b hb]
    cases burst with
    | incr =>
      obtain ⟨seen, hseen⟩ := exists_seen (len := len) (a := a) hsz (.inl rfl) view
      obtain ⟨ws', k1, -, k3⟩ := axiRead_incr sz m a len hsz hm (asBits seen) _ (hfrozen seen hseen)
      rw [hsl'] at k1
      injection k1 with k1
      subst k1
      rw [g2] at k3
      injection k3 with k3
      exact ⟨seen, k3, hseen⟩
    | fixed =>
      obtain ⟨ws', k1, -, k3⟩ := axiRead_fixed sz m a len hsz hm _ _ hans
      rw [hsl'] at k1
      injection k1 with k1
      subst k1
      rw [g2] at k3
      injection k3 with k3
    | wrap =>
      obtain ⟨w1, w2⟩ := hwrap rfl
      rw [hW] at w2
      obtain ⟨seen, hseen⟩ := exists_seen (len := len) (a := a) hsz (.inr ⟨rfl, w1⟩) view
      obtain ⟨ws', k1, -, k3⟩ := axiRead_wrap sz m a len hsz hm (asBits seen) _ w1 (w2.imp_left (Nat.dvd_of_mul_dvd_mul_left hsz)) (hfrozen seen hseen)
      rw [hsl'] at k1
      injection k1 with k1
      subst k1
      rw [g2] at k3
      injection k3 with k3
      refine ⟨seen, ?_, hseen⟩
      rw [k3]
      unfold readFrom
      simp only [wrap_aligned sz a len _ w1, Nat.sub_zero]

/-- the same for a call -/
theorem rJob_run (c : AxCfg) (hc : Standard c) (op : AxOp) (hw : IsRead op) (hok : AxOpOk c op) (s : Sim AxIn AddrOut)
    (hs : s.phase ≠ .ro) (hg : ∀ i ∈ s.cur :: s.rest, GoodBeat c.dataBytes i) :
    ((∃ s', (rJob c op s).2 = .blocked s') ∧ ∀ p ∈ (rJob c op s).1, rFire p.2 = true → rLast c p.2 = false) ∨
    (∃ t' ql s' x, rJob c op s = (t' ++ [ql], endWith x s') ∧ rFire ql.2 = true ∧ rLast c ql.2 = true ∧
      (∀ p ∈ t', rFire p.2 = true → rLast c p.2 = false) ∧ s'.phase = .edge ∧
      ∀ code view, (rBeats (t' ++ [ql])).length = axBeats op → (∀ n i, (rBeats (t' ++ [ql]))[n]? = some i → BeatOf c code (view n) (opReq c op) n i) →
        ReadGot c code op view x) := by
  obtain ⟨a, len, size, burst, sync, k, m, -, -, e3, hl, hwr, hf, hsz, hlen, hbt, hk, hm, hW, hdec, hseen, hcodes, hjob⟩ := read_call c hc op hw hok
  have hjoin : ∃ g : List LogicArray ⊕ List (LogicArray × Nat) → M AxIn AddrOut (List LogicArray),
      rJob c op s = (axiReadData c a len.toNat (bytesPerBeat c size) burst >>= g) s ∧
      (∀ words view s', ReadSeen (bytesPerBeat c size) burst a len.toNat view words → g (.inl words) s' = ([], .ok words s')) ∧
      ∀ d s', ∃ x, g d s' = ([], endWith x s') := by
    rcases hjob with h | ⟨h, rfl, rfl, rfl⟩
    · refine ⟨fun d => pure (d.elim id (fun l => l.map Prod.fst)), ?_, fun words view s' _ => rfl, fun d s' => ⟨.ok _, rfl⟩⟩
      rw [h]
      simp only [rJob, checks_ok hc hl]
      exact bind_ofExcept_ok _ _ s
    · refine ⟨fun d => liteFirst d >>= fun d => pure [d], ?_, ?_, ?_⟩
      · rw [h]
        simp only [rJob, checks_ok hc hl]
        exact bind_ofExcept_ok _ _ s
      · intro words view s' h
        obtain ⟨d, rfl⟩ := liteSeen h
        rfl
      · intro d s'
        match d with
        | .inl (w :: _) => exact ⟨.ok [w], rfl⟩
        | .inl [] => exact ⟨.error .indexError, rfl⟩
        | .inr _ => exact ⟨.error .indexError, rfl⟩
  obtain ⟨g, hj, hgw, hgx⟩ := hjoin
  rw [bind_run] at hj
  rcases axiReadData_run c a len.toNat _ m hsz hm hW burst s hs hg with ⟨⟨s', h⟩, h'⟩ | ⟨t', ql, s', sl, o, h1, h2, h3, h4, h5, h6, h7⟩
  · left
    rw [hj, show axiReadData c a len.toNat (bytesPerBeat c size) burst s = (_, .blocked s') from Prod.ext rfl h, andThen_blocked]
    exact ⟨⟨s', rfl⟩, h'⟩
  · right
    have hfin := fun code view hB hb => finish_seen c a len.toNat _ m o hsz hm hW burst hwr code view (opReq c op) hdec
      (rBeats (axiReadData c a len.toNat (bytesPerBeat c size) burst s).1) hB hb sl h7
    generalize hy : axiFinish a len.toNat (bytesPerBeat c size) burst false
      ⟨sl, (rBeats (axiReadData c a len.toNat (bytesPerBeat c size) burst s).1).map (fun i => bitsToNat i.rresp), o⟩ = y at *
    rw [h1] at hfin
    have hrun : axiReadData c a len.toNat (bytesPerBeat c size) burst s = (t' ++ [ql], endWith y s') := Prod.ext h1 h6
    rw [hrun] at hj
    cases y with
    | error e =>
      have hj' : rJob c op s = (t' ++ [ql], endWith (.error e) s') := hj
      refine ⟨t', ql, s', .error e, hj', h2, h3, h4, h5, ?_⟩
      intro code view hB hb
      unfold ReadGot
      rw [hcodes]
      rcases hfin code view (by rw [hB, hbt]) hb with ⟨e', f1, f2⟩ | ⟨f1, words, f2, f3⟩
      · rw [f1]
        cases f2
        rfl
      · cases f2
    | ok d =>
      obtain ⟨x, hx⟩ := hgx d s'
      have hj' : rJob c op s = (t' ++ [ql], endWith x s') := by
        rw [hj]
        show Res.andThen (t' ++ [ql], .ok d s') g = _
        rw [andThen_ok, hx]
        simp
      refine ⟨t', ql, s', x, hj', h2, h3, h4, h5, ?_⟩
      intro code view hB hb
      unfold ReadGot
      rw [hcodes]
      rcases hfin code view (by rw [hB, hbt]) hb with ⟨e', f1, f2⟩ | ⟨f1, words, f2, f3⟩
      · cases f2
      · rw [f1]
        cases f2
        refine ⟨words, ?_, (hseen view words).2 f3⟩
        have := hgw words view s' f3
        rw [hx] at this
        cases x with
        | ok z => cases this; rfl
        | error z => cases this

/-- the number of reads answered, and of the beats of the next one -/
structure ReadCount (c : AxCfg) (rcode : Nat → Nat → Nat) (X : List AxIn) (ops : List AxOp) (A kr nb : Nat → Nat) (V : Nat → Nat → Byte) : Prop where
  most : ∀ n, A n ≤ ops.length
  quiet : ∀ n i, n + 1 < X.length → X[n]? = some i → (rFire i = false ∨ A n ≤ kr n) → kr (n + 1) = kr n ∧ nb (n + 1) = nb n
  fire : ∀ n i op, n + 1 < X.length → X[n]? = some i → rFire i = true → kr n < A n → ops[kr n]? = some op →
    BeatOf c (rcode (kr n)) (V n) (opReq c op) (nb n) i ∧ (rLast c i = true ↔ nb n + 1 = axBeats op) ∧
    (nb n + 1 = axBeats op → kr (n + 1) = kr n + 1 ∧ nb (n + 1) = 0) ∧ (nb n + 1 ≠ axBeats op → kr (n + 1) = kr n ∧ nb (n + 1) = nb n + 1)

variable {c : AxCfg} {rcode : Nat → Nat → Nat} {X : List AxIn} {ops : List AxOp} {A kr nb : Nat → Nat} {V : Nat → Nat → Byte}

theorem ReadCount.step (h : ReadCount c rcode X ops A kr nb V) (n : Nat) (hn : n + 1 < X.length) : kr n ≤ kr (n + 1) := by
  obtain ⟨i, hi⟩ : ∃ i, X[n]? = some i := ⟨_, List.getElem?_eq_getElem (by omega)⟩
  by_cases hq : rFire i = false ∨ A n ≤ kr n
  · exact Nat.le_of_eq (h.quiet n i hn hi hq).1.symm
  · have h1 : rFire i = true := by simpa using fun h => hq (.inl h)
    have h2 : kr n < A n := Nat.lt_of_not_le fun h => hq (.inr h)
    obtain ⟨op, hop⟩ : ∃ op, ops[kr n]? = some op := ⟨_, List.getElem?_eq_getElem (Nat.lt_of_lt_of_le h2 (h.most n))⟩
    obtain ⟨-, -, h3, h4⟩ := h.fire n i op hn hi h1 h2 hop
    by_cases hb : nb n + 1 = axBeats op
    · rw [(h3 hb).1]; omega
    · rw [(h4 hb).1]; exact Nat.le_refl _

theorem ReadCount.mono (h : ReadCount c rcode X ops A kr nb V) (n m : Nat) (hnm : n ≤ m) (hm : m + 1 ≤ X.length) : kr n ≤ kr m := by
  induction m with
  | zero => rw [Nat.le_zero.1 hnm]; exact Nat.le_refl _
  | succ m ih =>
    by_cases hn : n ≤ m
    · exact Nat.le_trans (ih hn (by omega)) (h.step m hm)
    · rw [show n = m + 1 by omega]
      exact Nat.le_refl _

/-- the beats of an answer up to the last one -/
theorem ReadCount.beats (h : ReadCount c rcode X ops A kr nb V) (op : AxOp) (k : Nat) (hop : ops[k]? = some op) (t : List (AddrOut × AxIn)) :
    ∀ n0, kr n0 = k → nb n0 < axBeats op → n0 + t.length + 1 ≤ X.length → (∀ j q, t[j]? = some q → X[n0 + j]? = some q.2) →
      (∀ n, n0 ≤ n → n + 1 ≤ X.length → k < A n) → (∀ q ∈ t, rFire q.2 = true → rLast c q.2 = false) →
      kr (n0 + t.length) = k ∧ nb (n0 + t.length) = nb n0 + (rBeats t).length ∧ nb n0 + (rBeats t).length < axBeats op ∧
      ∀ j i e, (rBeats t)[j]? = some i → (fireTimes n0 t)[j]? = some e → BeatOf c (rcode k) (V e) (opReq c op) (nb n0 + j) i := by
  induction t with
  | nil => intro n0 hk hn _ _ _ _; exact ⟨hk, rfl, hn, fun j i e hj => by simp [rBeats] at hj⟩
  | cons q t ih =>
    intro n0 hk hn hlen hX hA hl
    have hq : X[n0]? = some q.2 := hX 0 q rfl
    have hlt : n0 + 1 < X.length := by simp at hlen; omega
    have hX' : ∀ j q, t[j]? = some q → X[n0 + 1 + j]? = some q.2 := by
      intro j p hp
      have := hX (j + 1) p (by simpa using hp)
      rwa [show n0 + (j + 1) = n0 + 1 + j by omega] at this
    have hl' : ∀ q ∈ t, rFire q.2 = true → rLast c q.2 = false := fun q hx => hl q (by simp [hx])
    have hlen' : n0 + 1 + t.length + 1 ≤ X.length := by simp at hlen; omega
    rw [List.length_cons, show n0 + (t.length + 1) = n0 + 1 + t.length by omega]
    unfold fireTimes
    cases hf : rFire q.2 with
    | false =>
      obtain ⟨a1, a2⟩ := h.quiet n0 q.2 hlt hq (.inl hf)
      have hb : rBeats (q :: t) = rBeats t := by simp [rBeats, hf]
      have := ih (n0 + 1) (by rw [a1, hk]) (by rw [a2]; exact hn) hlen' hX' (fun n hn => hA n (by omega)) hl'
      rw [a2] at this
      rw [hb]
      exact this
    | true =>
      obtain ⟨a1, a2, a3, a4⟩ := h.fire n0 q.2 op hlt hq hf (by rw [hk]; exact hA n0 (Nat.le_refl _) (by omega)) (by rw [hk]; exact hop)
      have hne : nb n0 + 1 ≠ axBeats op := by
        intro hh
        have := a2.2 hh
        rw [hl q (by simp) hf] at this
        cases this
      obtain ⟨b1, b2⟩ := a4 hne
      have hb : rBeats (q :: t) = q.2 :: rBeats t := by simp [rBeats, hf]
      obtain ⟨i1, i2, i3, i4⟩ := ih (n0 + 1) (by rw [b1, hk]) (by rw [b2]; omega) hlen' hX' (fun n hn => hA n (by omega)) hl'
      rw [b2] at i2 i3 i4
      rw [hb, List.length_cons]
      refine ⟨i1, by omega, by omega, ?_⟩
      intro j i e hj he
      cases j with
      | zero =>
        have : q.2 = i := by simpa using hj
        subst this
        have : n0 = e := by simpa using he
        subst this
        rw [← hk]
        exact a1
      | succ j =>
        have := i4 j i e (by simpa using hj) (by simpa using he)
        rwa [show nb n0 + 1 + j = nb n0 + (j + 1) by omega] at this

/-- one call, from its turn on -/
theorem ReadCount.call (h : ReadCount c rcode X ops A kr nb V) (op : AxOp) (k : Nat) (hop : ops[k]? = some op) (hpos : 0 < axBeats op) (t' : List (AddrOut × AxIn)) (ql : AddrOut × AxIn)
    (n0 : Nat) (hk : kr n0 = k) (hn : nb n0 = 0) (hlen : n0 + t'.length + 1 < X.length) (hX : ∀ j q, (t' ++ [ql])[j]? = some q → X[n0 + j]? = some q.2)
    (hA : ∀ n, n0 ≤ n → n + 1 ≤ X.length → k < A n) (hl : ∀ q ∈ t', rFire q.2 = true → rLast c q.2 = false) (hf : rFire ql.2 = true) (hlast : rLast c ql.2 = true) :
    kr (n0 + t'.length + 1) = k + 1 ∧ nb (n0 + t'.length + 1) = 0 ∧ (rBeats (t' ++ [ql])).length = axBeats op ∧
    ∃ τ : Nat → Nat, (∀ n < axBeats op, n0 ≤ τ n ∧ τ n < n0 + t'.length + 1) ∧ (∀ n m, n < m → m < axBeats op → τ n < τ m) ∧
      ∀ n i, (rBeats (t' ++ [ql]))[n]? = some i → BeatOf c (rcode k) (V (τ n)) (opReq c op) n i := by
  obtain ⟨b1, b2, b3, b4⟩ := h.beats op k hop t' n0 hk (by rw [hn]; exact hpos) (by omega)
    (fun j q hq => hX j q (by rw [List.getElem?_append_left (List.getElem?_eq_some_iff.1 hq).1]; exact hq)) hA hl
  have hq : X[n0 + t'.length]? = some ql.2 := hX t'.length ql (by simp)
  obtain ⟨a1, a2, a3, -⟩ := h.fire (n0 + t'.length) ql.2 op hlen hq hf (by rw [b1]; exact hA _ (by omega) (by omega)) (by rw [b1]; exact hop)
  have hn' := a2.1 hlast
  obtain ⟨c1, c2⟩ := a3 hn'
  rw [hn, Nat.zero_add] at b2 b3
  rw [b2] at hn'
  have hbeats : rBeats (t' ++ [ql]) = rBeats t' ++ [ql.2] := by simp [rBeats, List.filter_append, hf]
  refine ⟨by rw [c1, b1], c2, by rw [hbeats]; simpa using hn', ?_⟩
  let times := fireTimes n0 (t' ++ [ql])
  have htimes : times = fireTimes n0 t' ++ [n0 + t'.length] := by
    show fireTimes _ (t' ++ [ql]) = _
    rw [fireTimes_append]
    simp [fireTimes, hf]
  have htl : times.length = axBeats op := by rw [htimes, List.length_append, fireTimes_length]; exact hn'
  have hτ : ∀ n, n < axBeats op → times[n]? = some (times.getD n 0) := by
    intro n hn
    rw [List.getD_eq_getElem?_getD, List.getElem?_eq_getElem (by rw [htl]; exact hn)]
    rfl
  refine ⟨fun n => times.getD n 0, ?_, ?_, ?_⟩
  · intro n hn
    have := fireTimes_mem _ _ _ (List.mem_of_getElem? (hτ n hn))
    simp at this ⊢
    omega
  · intro n n' hlt hn'
    have hs := List.pairwise_iff_getElem.1 (fireTimes_sorted (t' ++ [ql]) n0) n n' (by show n < times.length; omega) (by show n' < times.length; omega) hlt
    have e1 := (List.getElem?_eq_some_iff.1 (hτ n (by omega))).2
    have e2 := (List.getElem?_eq_some_iff.1 (hτ n' hn')).2
    show times.getD n 0 < times.getD n' 0
    rw [← e1, ← e2]
    exact hs
  · intro j i hj
    rw [hbeats] at hj
    have hjl : j < axBeats op := by
      have := (List.getElem?_eq_some_iff.1 hj).1
      simp at this
      omega
    have ht := hτ j hjl
    show BeatOf c (rcode k) (V (times.getD j 0)) (opReq c op) j i
    by_cases hj' : j < (rBeats t').length
    · rw [List.getElem?_append_left hj'] at hj
      rw [htimes, List.getElem?_append_left (by rw [fireTimes_length]; exact hj')] at ht
      have := b4 j i _ hj ht
      rw [hn, Nat.zero_add] at this
      rw [htimes]
      exact this
    · have hj0 : j = (rBeats t').length := by omega
      rw [List.getElem?_append_right (by omega)] at hj
      rw [htimes, List.getElem?_append_right (by rw [fireTimes_length]; omega), fireTimes_length, hj0, Nat.sub_self] at ht
      have e := Option.some.inj ht
      rw [hj0, Nat.sub_self] at hj
      have : ql.2 = i := by simpa using hj
      rw [← this, hj0, htimes, ← e, ← b1, ← b2]
      simpa using a1

/-- the calls waiting for their data, one after the other -/
theorem rthread (hc : Standard c) (h : ReadCount c rcode X ops A kr nb V) (hg : ∀ i ∈ X, GoodBeat c.dataBytes i) (calls : List (AxOp × Moment)) :
    ∀ (s : Sim AxIn AddrOut) (n0 k0 : Nat), s.phase ≠ .ro → s.cur :: s.rest = X.drop n0 → kr n0 = k0 → nb n0 = 0 →
      (∀ (j : Nat) (x : AxOp × Moment), calls[j]? = some x → ops[k0 + j]? = some x.1 ∧ AxOpOk c x.1 ∧ IsRead x.1 ∧ x.2.2 ≠ .ro ∧
        ∀ n, n + 1 ≤ X.length → (k0 + j < A n ↔ X.length - 1 - x.2.1 ≤ n)) →
      (∃ τ : Nat → Nat → Nat, ∀ (j : Nat) (op : AxOp) (t0 : Moment) (x : Except PyErr (List LogicArray)) (t : Moment), calls[j]? = some (op, t0) →
        (locked (rJob c) calls s).1[j]? = some (x, t) →
        (∀ n < axBeats op, n0 ≤ τ j n ∧ X.length - 1 - t0.1 ≤ τ j n ∧ τ j n < X.length - 1 - t.1) ∧ (∀ n m, n < m → m < axBeats op → τ j n < τ j m) ∧
        ReadGot c (rcode (k0 + j)) op (fun n => V (τ j n)) x ∧ t.1 + 1 ≤ X.length ∧
        ∀ j' < j, ∀ (x' : Except PyErr (List LogicArray)) (t' : Moment), (locked (rJob c) calls s).1[j']? = some (x', t') → ∀ n < axBeats op, X.length - 1 - t'.1 ≤ τ j n) ∧
      (∀ j < calls.length, ∀ n, n0 ≤ n → n + 1 ≤ X.length →
        ((∃ (x : Except PyErr (List LogicArray)) (t : Moment), (locked (rJob c) calls s).1[j]? = some (x, t) ∧ X.length - 1 - t.1 ≤ n) ↔ k0 + j < kr n)) := by
  induction calls with
  | nil => intro s n0 k0 _ _ _ _ _; exact ⟨⟨fun _ _ => 0, fun j op t0 x t h => by simp at h⟩, fun j h => by simp at h⟩
  | cons y l ih =>
    obtain ⟨op, t0⟩ := y
    intro s n0 k0 hs hX hk hn hcalls
    obtain ⟨hop, hok, hrd, ht0, hA⟩ := hcalls 0 (op, t0) rfl
    rw [Nat.add_zero] at hA hop
    simp only at ht0 hA hop hok hrd
    obtain ⟨u, s1, w1, w2, w3, w4, w5, w6⟩ := waitUntil_run (O := AddrOut) t0 ht0 s hs
    have hlenX : s.rest.length + 1 + n0 = X.length := by
      have := congrArg List.length hX
      simp at this
      omega
    rw [hX] at w6
    have hX1 := drop_of_append w6.symm
    rw [List.length_map] at hX1
    have hpos : 0 < axBeats op := by
      obtain ⟨a, len, size, burst, sync, k, m, -, -, -, -, -, -, -, h1, h2, -⟩ := read_call c hc op hrd hok
      omega
    -- no data is taken while waiting for the turn
    have hstay : ∀ d, d ≤ u.length → kr (n0 + d) = k0 ∧ nb (n0 + d) = 0 := by
      intro d
      induction d with
      | zero => intro _; exact ⟨hk, hn⟩
      | succ d ihd =>
        intro hd
        obtain ⟨hd1, hd2⟩ := ihd (by omega)
        obtain ⟨i, hi⟩ : ∃ i, X[n0 + d]? = some i := ⟨_, List.getElem?_eq_getElem (by omega)⟩
        have hb : ¬ k0 < A (n0 + d) := by
          rw [hA _ (by omega)]
          omega
        obtain ⟨z1, z2⟩ := h.quiet (n0 + d) i (by omega) hi (.inr (by rw [hd1]; omega))
        rw [show n0 + (d + 1) = n0 + d + 1 by omega, z1, z2]
        exact ⟨hd1, hd2⟩
    obtain ⟨hu1, hu2⟩ := hstay u.length (Nat.le_refl _)
    have hA1 : ∀ n, n0 + u.length ≤ n → n + 1 ≤ X.length → k0 < A n := by
      intro n hn hn'
      rw [hA n hn']
      omega
    have hlen1 : s1.rest.length + 1 + (n0 + u.length) = X.length := by
      have := congrArg List.length hX1
      simp at this
      omega
    have hbind : (waitUntil t0 >>= fun _ => rJob c op) s = (u ++ (rJob c op s1).1, (rJob c op s1).2) := by rw [bind_run, w1, andThen_ok]
    have hg1 : ∀ i ∈ s1.cur :: s1.rest, GoodBeat c.dataBytes i := by
      intro i hi
      rw [hX1] at hi
      exact hg i (List.mem_of_mem_drop hi)
    have hgood := rJob_good c op s1
    rcases rJob_run c hc op hrd hok s1 w3 hg1 with ⟨⟨s', hbl⟩, hno⟩ | ⟨t', ql, s', x0, r1, r2, r3, r4, r5, r6⟩
    · have hnone : s'.rest = [] := hgood.2 s' hbl
      have hin := hgood.1
      rw [hX1] at hin
      have hend : n0 + u.length + (rJob c op s1).1.length + 1 = X.length := by
        have := congrArg List.length hin
        rw [hbl] at this
        simp [End.sim, hnone] at this
        omega
      have hq := fun d (hd : d ≤ (rJob c op s1).1.length) =>
        (h.beats op k0 hop ((rJob c op s1).1.take d) (n0 + u.length) hu1 (by rw [hu2]; exact hpos) (by simp; omega) (by
          intro j q hq
          refine get_of_append (j := j) hin.symm ?_
          rw [List.getElem?_take] at hq
          split at hq
          · rw [List.getElem?_map, hq]
            rfl
          · cases hq) hA1 (fun q hq => hno q (List.mem_of_mem_take hq))).1
      rw [hbl] at hbind
      rw [locked_blocked _ _ _ _ _ _ _ hbind]
      refine ⟨⟨fun _ _ => 0, fun j op t0 x t _ h => by simp at h⟩, ?_⟩
      intro j hj n hn0 hnX
      have hkn : kr n = k0 := by
        by_cases hc : n ≤ n0 + u.length
        · have := (hstay (n - n0) (by omega)).1
          rwa [show n0 + (n - n0) = n by omega] at this
        · have := hq (n - (n0 + u.length)) (by omega)
          rwa [List.length_take, Nat.min_eq_left (by omega), show n0 + u.length + (n - (n0 + u.length)) = n by omega] at this
      constructor
      · rintro ⟨x, t, hx, _⟩
        simp at hx
      · intro h
        omega
    · obtain ⟨hin, -⟩ := hgood
      have hsim : (rJob c op s1).2.sim = s' := by rw [r1]; cases x0 <;> rfl
      rw [hsim, r1, hX1] at hin
      simp only at hin
      have hXe := drop_of_append hin.symm
      simp only [List.length_map, List.length_append, List.length_cons, List.length_nil, Nat.zero_add] at hXe
      have hend : s'.rest.length + 1 + (n0 + u.length + (t'.length + 1)) = X.length := by
        have := congrArg List.length hXe
        simp at this
        omega
      obtain ⟨k1, k2, k3, τ0, k4, k5, k6⟩ := h.call op k0 hop hpos t' ql (n0 + u.length) hu1 hu2 (by omega) (by
        intro j q hq
        refine get_of_append (j := j) hin.symm ?_
        rw [List.getElem?_map, hq]
        rfl) hA1 r4 r2 r3
      have hgot := r6 (rcode k0) (fun n => V (τ0 n)) k3 k6
      have hmono := h.mono
      have hearly : ∀ n, n0 ≤ n → n < n0 + u.length + (t'.length + 1) → kr n ≤ k0 := by
        intro n h1 h2
        have h3 := (h.beats op k0 hop t' (n0 + u.length) hu1 (by rw [hu2]; exact hpos) (by omega) (by
          intro j q hq
          refine get_of_append (j := j) hin.symm ?_
          rw [List.getElem?_map, List.getElem?_append_left (List.getElem?_eq_some_iff.1 hq).1, hq]
          rfl) hA1 r4).1
        rw [← h3]
        exact hmono _ _ (by omega) (by omega)
      obtain ⟨⟨τ1, hrest⟩, hends⟩ := ih s' (n0 + u.length + (t'.length + 1)) (k0 + 1) (by rw [r5]; decide) hXe k1 k2 (by
        intro j x hx
        obtain ⟨z1, z2, z3, z4, z5⟩ := hcalls (j + 1) x (by simpa using hx)
        rw [show k0 + (j + 1) = k0 + 1 + j by omega] at z1 z5
        exact ⟨z1, z2, z3, z4, z5⟩)
      have hlock : (locked (rJob c) ((op, t0) :: l) s).1 = (x0, (s'.rest.length, s'.phase)) :: (locked (rJob c) l s').1 := by
        rw [r1] at hbind
        cases x0 with
        | ok b => rw [locked_cons _ _ _ _ _ _ _ _ hbind]
        | error e => rw [locked_cons_err _ _ _ _ _ _ _ _ hbind]
      rw [hlock]
      refine ⟨⟨fun j => if j = 0 then τ0 else τ1 (j - 1), ?_⟩, ?_⟩
      rotate_left
      · intro j hj n hn0 hnX
        cases j with
        | zero =>
          simp only [List.getElem?_cons_zero, Option.some.injEq, Prod.mk.injEq]
          constructor
          · rintro ⟨x, t, ⟨rfl, rfl⟩, h⟩
            simp only at h
            have := hmono (n0 + u.length + (t'.length + 1)) n (by omega) hnX
            rw [show kr (n0 + u.length + (t'.length + 1)) = k0 + 1 from k1] at this
            omega
          · intro h
            refine ⟨_, _, ⟨rfl, rfl⟩, ?_⟩
            simp only
            have := hearly n hn0
            omega
        | succ j =>
          simp only [List.getElem?_cons_succ]
          by_cases hc : n < n0 + u.length + (t'.length + 1)
          · have h1 := hearly n hn0 hc
            constructor
            · rintro ⟨x, t, hx, h⟩
              have h2 := (hends j (by simpa using hj) (n0 + u.length + (t'.length + 1)) (Nat.le_refl _) (by omega)).1 ⟨x, t, hx, by omega⟩
              rw [show kr (n0 + u.length + (t'.length + 1)) = k0 + 1 from k1] at h2
              omega
            · intro h
              omega
          · have := hends j (by simpa using hj) n (by omega) hnX
            rw [show k0 + 1 + j = k0 + (j + 1) by omega] at this
            exact this
      intro j op' t0' x t hj hx
      cases j with
      | zero =>
        simp only [List.getElem?_cons_zero, Option.some.injEq, Prod.mk.injEq] at hx hj
        obtain ⟨rfl, rfl⟩ := hx
        obtain ⟨rfl, rfl⟩ := hj
        rw [Nat.add_zero]
        simp only [if_true]
        refine ⟨?_, k5, hgot, by omega, fun j' hj' => by omega⟩
        intro n hn
        have := k4 n hn
        omega
      | succ j =>
        obtain ⟨z1, z2, z3, z4, z5⟩ := hrest j op' t0' x t (by simpa using hj) (by simpa using hx)
        rw [show k0 + 1 + j = k0 + (j + 1) by omega] at z3
        simp only [Nat.add_eq_zero_iff, Nat.one_ne_zero, and_false, if_false, Nat.add_sub_cancel]
        refine ⟨fun n hn => ?_, z2, z3, z4, ?_⟩
        · have := z1 n hn
          omega
        · intro j' hj' x' t'' hx' n hn
          cases j' with
          | zero =>
            simp only [List.getElem?_cons_zero, Option.some.injEq, Prod.mk.injEq] at hx'
            obtain ⟨rfl, rfl⟩ := hx'
            have := z1 n hn
            simp only
            omega
          | succ j' => exact z5 j' (by omega) x' t'' (by simpa using hx') n hn

end CocotbBus
