import Verif.Proof.QueueBus

/-! # The send queue in time: everything appended is transferred if the sink is ready often enough -/

namespace CocotbBus
open Spec Coro

section
variable {I O P α σ : Type}

theorem grows_edge (app : Sched α) (hg : Grows app) (r : Nat) (ph : Phase) : app r .edge <+: app r ph := by
  cases ph with
  | edge => exact List.prefix_refl _
  | ro => exact (hg r).1
  | mid => exact (hg r).1.trans (hg r).2.1

theorem grows_mid (app : Sched α) (hg : Grows app) (r : Nat) (ph : Phase) : app r ph <+: app r .mid := by
  cases ph with
  | edge => exact (hg r).1.trans (hg r).2.1
  | ro => exact (hg r).2.1
  | mid => exact List.prefix_refl _

theorem grows_later (app : Sched α) (hg : Grows app) (r d : Nat) (ph : Phase) : app (r + d + 1) .mid <+: app r ph := by
  induction d generalizing r ph with
  | zero => exact ((hg r).2.2).trans (grows_edge app hg r ph)
  | succ d ih =>
    have h1 := ih (r + 1) .mid
    have e : r + 1 + d + 1 = r + (d + 1) + 1 := by omega
    rw [e] at h1
    exact h1.trans (((hg r).2.2).trans (grows_edge app hg r ph))

/-- the edges of a trace at which the sink is ready -/
def readies (V : Stream I O P) (t : List (O × I)) : Nat := (t.filter (fun q => V.ready q.2)).length

theorem readies_append (V : Stream I O P) (a b : List (O × I)) : readies V (a ++ b) = readies V a + readies V b := by
  simp [readies, List.filter_append]

theorem readies_drop (V : Stream I O P) (t : List (O × I)) (a b : Nat) (h : a ≤ b) : readies V (t.drop b) ≤ readies V (t.drop a) := by
  obtain ⟨d, rfl⟩ := Nat.le.dest h
  rw [← List.drop_drop]
  have := readies_append V ((t.drop a).take d) ((t.drop a).drop d)
  rw [List.take_append_drop] at this
  omega

/-- what a send takes: at most `cost` edges at which the sink is ready, and fewer if it does not return -/
def Takes (V : Stream I O P) (l : List P) (cost : Nat) (sync : Bool) (v' : σ) (r : Res I O σ) : Prop :=
  (∃ s', r.2 = .ok v' s' ∧ IdleBus V s' ∧ V.taken r.1 = l ∧ readies V (r.1.drop (syncEdges sync)) ≤ cost) ∨
  (∃ s', r.2 = .blocked s' ∧ readies V (r.1.drop (syncEdges sync)) < cost)

theorem takes_of_runs (V : Stream I O P) {l : List P} {ns : List Nat} {r : Res I O σ} {post : σ → Sim I O → Prop} {sync : Bool} {v' : σ}
    (h : Runs V l ns r post) (hp : ∀ a s', post a s' → a = v' ∧ IdleBus V s') (g : Nat) (hns : ns.sum = syncEdges sync + g)
    (hd : sync = true → ∀ q, r.1.head? = some q → V.valid q.1 = false) : Takes V l (l.length + g) sync v' r := by
  obtain ⟨k, hk, h1, -, -, h4, h5⟩ := h
  have hc : readies V (r.1.drop (syncEdges sync)) ≤ k + g := by
    have ht : (V.taken r.1).length = k := by rw [h1, List.length_take, Nat.min_eq_left hk]
    cases sync with
    | false =>
      have := ready_count_stream V r.1
      simp only [syncEdges, Bool.false_eq_true, if_false, List.drop_zero, readies] at *
      omega
    | true =>
      simp only [syncEdges, if_true] at *
      generalize r.1 = t at *
      cases t with
      | nil => simp [readies]
      | cons q t =>
        have hq := hd trivial q rfl
        have := ready_count_stream V t
        have e1 : V.taken (q :: t) = V.taken t := by simp [Stream.taken, Stream.xfer, hq]
        have e2 : (idles V (q :: t)).length = (idles V t).length + 1 := by simp [idles, hq]
        rw [e1] at ht
        simp only [List.drop_succ_cons, List.drop_zero, readies]
        omega
  rcases h5 with ⟨rfl, -, -, a, s', e, hpost⟩ | ⟨hlt, s', e, -⟩
  · obtain ⟨rfl, hi⟩ := hp a s' hpost
    exact .inl ⟨s', e, hi, by rw [h1, List.take_length], hc⟩
  · exact .inr ⟨s', e, by omega⟩

/-- what a list of transactions takes -/
def total (cost : α → σ → Nat) (next : α → σ → σ) : List α → σ → Nat
  | [], _ => 0
  | x :: l, v => cost x v + total cost next l (next x v)

/-- the queue thread sends everything -/
theorem queue_delivers (V : Stream I O P) (send : α → Bool → σ → M I O σ) (payloads : α → List P) (cost : α → σ → Nat) (next : α → σ → σ)
    (app : Sched α) (hg : Grows app) (hro : NotInReadOnly app)
    (hpass : ∀ x ∈ everything app, ∀ sync v s, s.phase ≠ .ro → Passes V (payloads x) (send x sync v s) (fun _ s' => IdleBus V s'))
    (hsend : ∀ x ∈ everything app, ∀ sync v s, IdleBus V s → Takes V (payloads x) (cost x v) sync (next x v) (send x sync v s))
    (hne : ∀ x ∈ everything app, payloads x ≠ []) (hgood : ∀ x sync v, Good (send x sync v)) (r0 : Nat) (hall : app r0 .mid = everything app) :
    ∀ (n k : Nat) (synced : Bool) (v : σ) (s : Sim I O), IdleBus V s → s.rest.length < n → (synced = false → r0 ≤ s.rest.length) →
      total cost next ((everything app).drop k) v ≤ readies V ((iter (queueBody send app) n (k, synced, v) s).1.drop (s.rest.length + 1 - r0)) →
      V.taken (iter (queueBody send app) n (k, synced, v) s).1 = ((everything app).drop k).flatMap payloads := by
  intro n
  induction n with
  | zero => intro k synced v s _ h; omega
  | succ n ih =>
    intro k synced v s hs hn hsy
    have hnow : ∀ s : Sim I O, (now : M I O _) s = ([], .ok (s.rest.length, s.phase) s) := fun _ => rfl
    have hone : ∀ (x : α) (sync : Bool) (t : Sim I O), (app t.rest.length t.phase)[k]? = some x → IdleBus V t →
        t.rest.length ≤ s.rest.length → (sync = true → r0 ≤ t.rest.length) →
        total cost next ((everything app).drop k) v ≤
          readies V (((send x sync v >>= fun v' => iter (queueBody send app) n (k + 1, true, v')) t).1.drop (t.rest.length + 1 - r0)) →
        V.taken ((send x sync v >>= fun v' => iter (queueBody send app) n (k + 1, true, v')) t).1 = ((everything app).drop k).flatMap payloads := by
      intro x sync t hx ht hle hr0 htot
      have hx' : (everything app)[k]? = some x := prefix_get (grows_final app hg _ _) hx
      have hm : x ∈ everything app := List.mem_of_getElem? hx'
      obtain ⟨hk, hx''⟩ := List.getElem?_eq_some_iff.1 hx'
      rw [List.drop_eq_getElem_cons hk, hx''] at htot ⊢
      rw [List.flatMap_cons]
      rw [total] at htot
      rw [bind_run] at htot ⊢
      have hse : syncEdges sync ≤ t.rest.length + 1 - r0 := by
        cases sync with
        | false => simp [syncEdges]
        | true => have := hr0 rfl; simp only [syncEdges, if_true]; omega
      have hgd := (hgood x sync v t).1
      rcases hsend x hm sync v t ht with ⟨s', e, hi, htk, hc⟩ | ⟨s', e, hc⟩
      · have he : send x sync v t = ((send x sync v t).1, .ok (next x v) s') := by rw [← e]
        rw [he, andThen_ok] at htot ⊢
        rw [e] at hgd
        have hl := congrArg List.length hgd
        simp only [List.length_append, List.length_map, List.length_cons, End.sim] at hl
        have hpos : (send x sync v t).1 ≠ [] := by
          intro h0
          rw [h0] at htk
          exact hne x hm htk.symm
        have hpos := List.length_pos_iff.2 hpos
        simp only at htot ⊢
        rw [taken_append, htk, ih (k + 1) true (next x v) s' hi (by omega) (fun h => by cases h)]
        rw [List.drop_append, readies_append] at htot
        have h1 := readies_drop V (send x sync v t).1 _ _ hse
        have e2 : t.rest.length + 1 - r0 - (send x sync v t).1.length = s'.rest.length + 1 - r0 := by omega
        rw [e2] at htot
        omega
      · exfalso
        have he : send x sync v t = ((send x sync v t).1, .blocked s') := by rw [← e]
        rw [he, andThen_blocked] at htot
        simp only at htot
        have h1 := readies_drop V (send x sync v t).1 _ _ hse
        omega
    by_cases hk : (everything app).length ≤ k
    · intro _
      obtain ⟨j, hj, h1, -⟩ := queue_passes V send payloads app hg hro hpass (n + 1) k synced v s hs
      rw [List.drop_eq_nil_of_le hk] at hj h1 ⊢
      rw [h1]; simp
    rw [iter_succ_run, bind_run, queueBody_run, ← bind_run]
    cases hx : (app s.rest.length s.phase)[k]? with
    | some x =>
      rw [bind_assoc_run]
      exact hone x (!synced) s hx hs (Nat.le_refl _) (fun h => hsy (by simpa using h))
    | none =>
      have hL : r0 ≤ s.rest.length := by
        rcases Nat.lt_or_ge s.rest.length r0 with h | h
        · obtain ⟨d, rfl⟩ := Nat.exists_eq_add_of_lt h
          have := (grows_later app hg s.rest.length d s.phase).length_le
          rw [hall] at this
          have := List.getElem?_eq_none_iff.1 hx
          omega
        · exact h
      rw [bind_assoc_run]
      obtain ⟨ids, hids, hw⟩ := queueWait_run app hro k s hs.1
      have hlen : ids.length ≤ s.rest.length - r0 := by
        rcases Nat.eq_zero_or_pos ids.length with h0 | h0
        · omega
        · have h1 := hids (ids.length - 1) (by omega)
          rcases Nat.lt_or_ge r0 (s.rest.length - (ids.length - 1)) with h | h
          · omega
          · exfalso
            have h2 : (everything app).length ≤ (app (s.rest.length - (ids.length - 1)) .mid).length := by
              rcases Nat.lt_or_ge (s.rest.length - (ids.length - 1)) r0 with h' | h'
              · obtain ⟨d, e⟩ := Nat.exists_eq_add_of_lt h'
                have := (grows_later app hg (s.rest.length - (ids.length - 1)) d .mid).length_le
                rw [← e, hall] at this
                exact this
              · have e : s.rest.length - (ids.length - 1) = r0 := by omega
                rw [e, hall]
                exact Nat.le_refl _
            omega
      rcases hw with ⟨s', e, -, -, h3, -⟩ | ⟨s', e, ho, hph, hle, hav⟩
      · exact absurd h3 (by simpa [everything] using hk)
      · have hx : (app s'.rest.length s'.phase)[k]? = some (app s'.rest.length s'.phase)[k] := List.getElem?_eq_getElem hav
        have hsil : ∀ q ∈ ids.map (fun i => (s.out, i)), V.xfer q = false := by
          intro q hq
          obtain ⟨i, -, rfl⟩ := List.mem_map.1 hq
          simp [Stream.xfer, hs.2]
        rw [bind_run, e, andThen_ok]
        rw [bind_assoc_run, bind_silent _ _ _ _ _ (hnow s')]
        simp only [hx]
        rw [bind_assoc_run]
        intro htot
        rw [taken_append, taken_none V _ hsil, List.nil_append]
        have hd : (ids.map (fun i => (s.out, i))).drop (s.rest.length + 1 - r0) = [] := List.drop_eq_nil_of_le (by rw [List.length_map]; omega)
        rw [List.drop_append, readies_append, hd] at htot
        have e2 : s.rest.length + 1 - r0 - (ids.map (fun i => (s.out, i))).length = s'.rest.length + 1 - r0 := by rw [List.length_map]; omega
        rw [e2] at htot
        exact hone _ true s' hx ⟨hph, by rw [ho]; exact hs.2⟩ (by omega) (fun _ => by omega) (by simpa [readies] using htot)

end

/-- the idle edges of the valid generator before the first `n` words -/
theorem gaps_gen (n : Nat) (gen : Option (List (Nat × Nat))) :
    gaps n (setValidGenerator gen) = (List.range n).map (gapAt (usable (gen.getD []))) := by
  cases gen with
  | some g => exact gaps_setValid n g
  | none =>
    rw [gaps_setValid_none]
    apply List.ext_getElem
    · simp
    · intro i h1 h2; simp [gapAt, usable]

/-! ### Avalon-ST -/

theorem stSend_takes (cfg : StCfg) (x : AvVal) (d : BinVal) (hx : createBinary x cfg.width false = .ok d) (sync : Bool) (v : Valids)
    (s : Sim StIn StOut) (hs : s.phase ≠ .ro) :
    Takes (stStream cfg) [d.bits] (1 + (gapStep v).1) sync (gapStep v).2 (stSend cfg x sync v s) := by
  have hz : (Logic.zero == Logic.one) = false := rfl
  obtain ⟨idle, hi, h⟩ := stSend_run cfg x d hx sync v s hs
  have ho : Offers (stStream cfg) d.bits (syncEdges sync + (gapStep v).1) (stSend cfg x sync v s)
      (fun a s' => a = (gapStep v).2 ∧ IdleBus (stStream cfg) s') := by
    have hiv : ∀ q ∈ idle, (stStream cfg).valid q.1 = false := fun q hq => by simp [stStream, hi q hq]
    rcases h with ⟨s', e, h1, h2⟩ | ⟨hl, ws, hw, ⟨s', e, h1, -⟩ | ⟨a, s', e, h1, h2, h3⟩⟩
    · exact ⟨idle, [], hiv, by simp, .inl ⟨s', e, by simp [stStream, h1], Nat.le_of_lt h2⟩⟩
    · refine ⟨idle, ws.map (fun i => (⟨.one, d.bits⟩, i)), hiv, ?_, .inr ⟨hl, .inl ⟨s', e, by simp [stStream, h1], by simp [stStream, h1]⟩⟩⟩
      intro q hq
      obtain ⟨i, hi', rfl⟩ := List.mem_map.1 hq
      obtain ⟨g1, g2⟩ := hw i hi'
      simp [stStream, g1, g2]
    · refine ⟨idle, ws.map (fun i => (⟨.one, d.bits⟩, i)), hiv, ?_, .inr ⟨hl, .inr ⟨_, _, s', e, by simp [stStream], by simp [stStream], ?_, rfl,
        by rw [h3]; decide, by simp [stStream, h2]⟩⟩⟩
      · intro q hq
        obtain ⟨i, hi', rfl⟩ := List.mem_map.1 hq
        obtain ⟨g1, g2⟩ := hw i hi'
        simp [stStream, g1, g2]
      · cases hr : cfg.hasReady
        · simp [stStream, hr]
        · simp [stStream, h1 hr]
  have hd : sync = true → ∀ q, (stSend cfg x sync v s).1.head? = some q → (stStream cfg).valid q.1 = false := by
    intro hs1 q hq
    subst hs1
    have hidle : idle ≠ [] → q ∈ idle := by
      intro hne
      rcases h with ⟨s', e, -⟩ | ⟨-, ws, -, ⟨s', e, -⟩ | ⟨a, s', e, -⟩⟩ <;> rw [e] at hq <;> cases idle with
      | nil => exact absurd rfl hne
      | cons r t => simp at hq; simp [hq]
    by_cases hne : idle = []
    · rcases h with ⟨s', e, -⟩ | ⟨hl, -⟩
      · rw [e, hne] at hq; cases hq
      · rw [hne] at hl; simp only [List.length_nil, if_true] at hl; omega
    · simp [stStream, hi q (hidle hne)]
  have := takes_of_runs (stStream cfg) (v' := (gapStep v).2) ho.runs (fun a s' h => h) (gapStep v).1 (by simp) hd
  simpa using this

theorem total_words (N : List AvVal) : ∀ v : Valids,
    total (fun (_ : AvVal) v => 1 + (gapStep v).1) (fun _ v => (gapStep v).2) N v = N.length + (gaps N.length v).sum := by
  induction N with
  | nil => intro v; rfl
  | cons x l ih =>
    intro v
    rw [total, ih]
    simp only [List.length_cons, gaps, List.sum_cons]
    omega

theorem stQueue_delivers (cfg : StCfg) (gen : Option (List (Nat × Nat))) (app : Sched AvVal) (hg : Grows app) (hro : NotInReadOnly app)
    (word : AvVal → LogicArray) (hx : ∀ x ∈ everything app, ∃ d, createBinary x cfg.width false = .ok d ∧ d.bits = word x)
    (s : Sim StIn StOut) (hs : s.phase ≠ .ro) (r0 : Nat) (hr0 : r0 ≤ s.rest.length) (hall : app r0 .mid = everything app)
    (hready : (everything app).length + ((List.range (everything app).length).map (gapAt (usable (gen.getD [])))).sum ≤
      readies (stStream cfg) ((stQueue cfg gen app s).1.drop (s.rest.length + 1 - r0))) :
    (stStream cfg).taken (stQueue cfg gen app s).1 = (everything app).map word := by
  unfold stQueue stConstruct at hready ⊢
  rw [bind_write _ _ _ hs] at hready ⊢
  rw [List.map_eq_flatMap]
  refine queue_delivers (stStream cfg) (fun x sync v => stSend cfg x sync v) (fun x => [word x]) (fun _ v => 1 + (gapStep v).1)
    (fun _ v => (gapStep v).2) app hg hro (fun x hm sync v s hs => ?_) (fun x hm sync v s hs => ?_) (fun _ _ => by simp)
    (fun x sync v => Good.stSend cfg x sync v) r0 hall _ 0 false (setValidGenerator gen) _ ⟨hs, rfl⟩ (Nat.lt_succ_self _) (fun _ => hr0) ?_
  · obtain ⟨d, h1, h2⟩ := hx x hm
    rw [← h2]
    exact stSend_passes cfg x d h1 sync v s hs
  · obtain ⟨d, h1, h2⟩ := hx x hm
    rw [← h2]
    exact stSend_takes cfg x d h1 sync v s hs.1
  · rw [List.drop_zero, total_words, gaps_gen]
    exact hready

/-! ### Packets -/

theorem awaitEdge_first {I O α : Type} (k : Unit → M I O α) (s : Sim I O) (q : O × I) (h : ((awaitEdge >>= k) s).1.head? = some q) : q.1 = s.out := by
  cases hr : s.rest with
  | nil => rw [bind_awaitEdge_nil _ _ hr] at h; cases h
  | cons i r => rw [bind_awaitEdge_cons _ _ _ _ hr] at h; simp at h; rw [← h]

theorem pkSend_first (c : PkCfg) (pkt : Bytes) (hne : pkt ≠ []) (ch : Option Int) (v : Valids) (s : Sim PkIn PkOut) (hs : s.phase ≠ .ro)
    (q : PkOut × PkIn) (h : (pkSend c pkt true ch v s).1.head? = some q) : q.1.valid = .zero := by
  unfold pkSend at h
  rw [bind_write _ _ _ hs] at h
  cases hc : (c.channelW.isNone && ch.isSome) with
  | true => rw [hc] at h; simp [Coro.when, bind_raise] at h
  | false =>
    rw [hc, bind_run] at h
    simp only [Coro.when, Bool.false_eq_true, if_false] at h
    cases pkt with
    | nil => exact absurd rfl hne
    | cons b r =>
      simp only [if_true, pure_run, andThen_ok, List.nil_append] at h
      rw [bind_assoc_run] at h
      rw [awaitEdge_first _ _ _ h]
      rfl

theorem addFirst_sum (k : Nat) (l : List Nat) (h : l ≠ []) : (addFirst k l).sum = k + l.sum := by
  cases l with
  | nil => exact absurd rfl h
  | cons a l => simp [addFirst]; omega

theorem pkSend_takes (c : PkCfg) (n : Nat) (hb : ByteBus c n) (pkt : Bytes) (hne : pkt ≠ []) (sync : Bool) (ch : Option Int)
    (hc : ChannelOk c ch) (v : Valids) (s : Sim PkIn PkOut) (hs : s.phase ≠ .ro) :
    Takes (pkStream c) (beatsOf c n pkt (chNum ch)) (beatCount n pkt.length + (gaps (beatCount n pkt.length) v).sum) sync
      (gapIter (beatCount n pkt.length) v) (pkSend c pkt sync ch v s) := by
  have hpos := beatCount_pos n pkt.length hb.pos (List.length_pos_iff.2 hne)
  have := takes_of_runs (pkStream c) (v' := gapIter (beatCount n pkt.length) v) (pkSend_runs c n hb pkt hne sync ch hc v s hs)
    (fun a s' h => ⟨h.2.2, by rw [h.1]; decide, by simp [pkStream, h.2.1]⟩) (gaps (beatCount n pkt.length) v).sum
    (addFirst_sum _ _ (by intro h; have := congrArg List.length h; rw [gaps_length] at this; simp at this; omega))
    (fun h q hq => by subst h; simp [pkStream, pkSend_first c pkt hne ch v s hs q hq])
  rwa [beatsOf_eq, beatsFrom_length, ← beatsOf_eq] at this

theorem total_packets (n : Nat) (l : List (Bytes × Option Int)) : ∀ v : Valids,
    total (fun (p : Bytes × Option Int) v => beatCount n p.1.length + (gaps (beatCount n p.1.length) v).sum) (fun p v => gapIter (beatCount n p.1.length) v) l v =
      (l.map (fun p => beatCount n p.1.length)).sum + (gaps (l.map (fun p => beatCount n p.1.length)).sum v).sum := by
  induction l with
  | nil => intro v; rfl
  | cons x l ih =>
    intro v
    rw [total, ih]
    simp only [List.map_cons, List.sum_cons, gaps_add, List.sum_append]
    omega

theorem pkQueue_delivers (c : PkCfg) (gen : Option (List (Nat × Nat))) (n : Nat) (hb : ByteBus c n) (app : Sched (Bytes × Option Int))
    (hg : Grows app) (hro : NotInReadOnly app) (hi : ∀ p ∈ everything app, p.1 ≠ [] ∧ ChannelOk c p.2) (s : Sim PkIn PkOut)
    (hs : s.phase ≠ .ro) (r0 : Nat) (hr0 : r0 ≤ s.rest.length) (hall : app r0 .mid = everything app)
    (hready :
      let beats := ((everything app).map (fun p => beatCount n p.1.length)).sum
      beats + ((List.range beats).map (gapAt (usable (gen.getD [])))).sum ≤
        readies (pkStream c) ((pkQueue c gen app s).1.drop (s.rest.length + 1 - r0))) :
    (pkStream c).taken (pkQueue c gen app s).1 = (everything app).flatMap (fun p => beatsOf c n p.1 (chNum p.2)) := by
  have e : pkQueue c gen app s = iter (queueBody (fun x sync v => pkSend c x.1 sync x.2 v) app) (s.rest.length + 1)
      (0, false, setValidGenerator gen) { s with out := pkCleanup c s.out } := by
    unfold pkQueue pkConstruct
    rw [bind_write _ _ _ hs]
    rfl
  rw [e] at hready ⊢
  have hp : ∀ p ∈ everything app, ∀ sync v s, s.phase ≠ .ro →
      Passes (pkStream c) (beatsOf c n p.1 (chNum p.2)) (pkSend c p.1 sync p.2 v s) (fun _ s' => IdleBus (pkStream c) s') := fun p hp sync v s hs =>
    Passes.mono _ (Runs.passes _ (pkSend_runs c n hb p.1 (hi p hp).1 sync p.2 (hi p hp).2 v s hs))
      (fun v' s' h => ⟨by rw [h.1]; decide, by simp [pkStream, h.2.1]⟩)
  have := queue_delivers (pkStream c) (fun x sync v => pkSend c x.1 sync x.2 v) (fun p => beatsOf c n p.1 (chNum p.2))
    (fun p v => beatCount n p.1.length + (gaps (beatCount n p.1.length) v).sum)
    (fun p v => gapIter (beatCount n p.1.length) v) app hg hro hp
    (fun x hm sync v s hs => pkSend_takes c n hb x.1 (hi x hm).1 sync x.2 (hi x hm).2 v s hs.1)
    (fun x hm => beatsOf_ne_nil c n hb.pos _ _ (hi x hm).1)
    (fun x sync v => Good.pkSend c x.1 sync x.2 v) r0 hall (s.rest.length + 1) 0 false (setValidGenerator gen)
    { s with out := pkCleanup c s.out } ⟨hs, rfl⟩ (Nat.lt_succ_self _) (fun _ => hr0) (by
      rw [List.drop_zero, total_packets, gaps_gen]
      exact hready)
  rw [List.drop_zero] at this
  exact this

end CocotbBus
