import Verif.Spec.AvalonPkts
import Verif.Proof.StreamProg

namespace CocotbBus
open Coro Spec

/-! ### The beats of a packet -/

/-- like `beatsOf`, for what is left of a packet -/
def beatsFrom (c : PkCfg) (n : Nat) (first : Bool) (pkt : Bytes) (channel : Nat) : List Beat :=
  let k := beatCount n pkt.length
  (List.range k).map fun j =>
    { sop := Logic.ofBool (first && j == 0)
      eop := Logic.ofBool (j + 1 == k)
      data := wordBits c.highFirst n ((pkt.drop (j * n)).take n)
      empty := if c.useEmpty then some (natToBits (c.emptyW.getD 0) (if j + 1 = k then n * k - pkt.length else 0)) else none
      channel := c.channelW.map (fun w => natToBits w channel) }

theorem beatsOf_eq (c : PkCfg) (n : Nat) (pkt : Bytes) (ch : Nat) : beatsOf c n pkt ch = beatsFrom c n true pkt ch := by
  simp [beatsOf, beatsFrom]

theorem beatCount_small (n len : Nat) (hn : 0 < n) (h1 : 0 < len) (h2 : len ≤ n) : beatCount n len = 1 := by
  unfold beatCount
  rw [Nat.div_eq_iff hn]; omega

theorem beatCount_big (n len : Nat) (hn : 0 < n) (h : n < len) : beatCount n len = beatCount n (len - n) + 1 := by
  unfold beatCount
  have : len + n - 1 = (len - n + n - 1) + n := by omega
  rw [this, Nat.add_div_right _ hn]

theorem beatCount_pos (n len : Nat) (hn : 0 < n) (h : 0 < len) : 0 < beatCount n len := by
  unfold beatCount
  exact Nat.div_pos (by omega) hn

theorem beatsFrom_small (c : PkCfg) (n : Nat) (hn : 0 < n) (first : Bool) (pkt : Bytes) (ch : Nat) (h1 : pkt ≠ [])
    (h2 : pkt.length ≤ n) : beatsFrom c n first pkt ch =
      [{ sop := Logic.ofBool first, eop := .one, data := wordBits c.highFirst n pkt
         empty := if c.useEmpty then some (natToBits (c.emptyW.getD 0) (n - pkt.length)) else none
         channel := c.channelW.map (fun w => natToBits w ch) }] := by
  have h0 : 0 < pkt.length := List.length_pos_iff.2 h1
  unfold beatsFrom
  rw [beatCount_small n _ hn h0 h2]
  simp [List.take_of_length_le h2, Logic.ofBool]

theorem beatsFrom_big (c : PkCfg) (n : Nat) (hn : 0 < n) (first : Bool) (pkt : Bytes) (ch : Nat) (h : n < pkt.length) :
    beatsFrom c n first pkt ch =
      { sop := Logic.ofBool first, eop := .zero, data := wordBits c.highFirst n (pkt.take n)
        empty := if c.useEmpty then some (natToBits (c.emptyW.getD 0) 0) else none
        channel := c.channelW.map (fun w => natToBits w ch) } :: beatsFrom c n false (pkt.drop n) ch := by
  have hb := beatCount_big n pkt.length hn h
  have hp := beatCount_pos n (pkt.length - n) hn (by omega)
  unfold beatsFrom
  simp only [List.length_drop]
  rw [hb, List.range_succ_eq_map, List.map_cons, List.map_map]
  congr 1
  · simp only [beq_self_eq_true, Bool.and_true, Nat.zero_add, Nat.zero_mul, List.drop_zero]
    have e1 : (1 == beatCount n (pkt.length - n) + 1) = false := by simp; omega
    have e2 : ¬ (1 = beatCount n (pkt.length - n) + 1) := by omega
    rw [if_neg e2, e1]; simp [Logic.ofBool]
  · apply List.map_congr_left
    intro j hj
    have e1 : (j.succ == 0) = false := by simp
    have e2 : (j.succ + 1 == beatCount n (pkt.length - n) + 1) = (j + 1 == beatCount n (pkt.length - n)) := by
      simp
    have e3 : (j.succ + 1 = beatCount n (pkt.length - n) + 1) ↔ (j + 1 = beatCount n (pkt.length - n)) := by omega
    have e4 : n * (beatCount n (pkt.length - n) + 1) - pkt.length = n * beatCount n (pkt.length - n) - (pkt.length - n) := by
      rw [Nat.mul_succ]; omega
    simp only [Function.comp, e1, e2, e3, e4, Bool.and_false, Bool.false_and, List.drop_drop, Nat.succ_mul, Nat.add_comm n]

/-! ### The driver -/

/-- channel number of an acceptable channel argument -/
def chNum (ch : Option Int) : Nat := (ch.getD 0).toNat

/-- state after `n` words -/
def gapIter : Nat → Valids → Valids
  | 0, v => v
  | n + 1, v => gapIter n (gapStep v).2

theorem gaps_length (n : Nat) (v : Valids) : (gaps n v).length = n := by
  induction n generalizing v with
  | zero => rfl
  | succ n ih => simp [gaps, ih]

theorem gaps_add (a b : Nat) (v : Valids) : gaps (a + b) v = gaps a v ++ gaps b (gapIter a v) := by
  induction a generalizing v with
  | zero => simp [gaps, gapIter]
  | succ a ih => rw [Nat.succ_add]; simp [gaps, gapIter, ih]

theorem gapIter_add (a b : Nat) (v : Valids) : gapIter (a + b) v = gapIter b (gapIter a v) := by
  induction a generalizing v with
  | zero => simp [gapIter]
  | succ a ih => rw [Nat.succ_add]; simp [gapIter, ih]

/-- the state the loop starts an iteration in -/
structure BeatPre (c : PkCfg) (s : Sim PkIn PkOut) : Prop where
  phase : s.phase ≠ .ro
  eop : s.out.eop = .zero
  empty : c.useEmpty = true → s.out.empty = natToBits (c.emptyW.getD 0) 0

theorem pkChannel_run (c : PkCfg) (ch : Option Int) (hc : ChannelOk c ch) (s : Sim PkIn PkOut) (hs : s.phase ≠ .ro) :
    pkChannel c ch s = ([], .ok () { s with out := { s.out with channel := match c.channelW with
      | some w => natToBits w (chNum ch)
      | none => s.out.channel } }) := by
  unfold pkChannel ChannelOk at *
  cases hw : c.channelW with
  | none => rfl
  | some w =>
    cases ch with
    | none => simp only; rw [write_ok _ _ hs]; rfl
    | some x =>
      simp only [hw] at hc ⊢
      rw [if_neg (by omega), write_ok _ _ hs]; rfl

theorem createBinaryBytes_word (hf : Bool) (n : Nat) (b : Bytes) (h : b.length ≤ n) :
    createBinaryBytes b (8 * n) hf = .ok (.array (wordBits hf n b)) := by
  rw [createBinaryBytes_eq b n hf h, wordBits]
  cases hf <;> rfl

/-- the writes of a beat, after the gap -/
theorem pkBeat_offers (c : PkCfg) (n : Nat) (hb : ByteBus c n) (ch : Option Int) (hc : ChannelOk c ch) (first : Bool) (string : Bytes)
    (hne : string ≠ []) (b : Beat) (hbeat : (beatsFrom c n first string (chNum ch)).head? = some b) (v : Valids) (s : Sim PkIn PkOut)
    (hs : BeatPre c s) :
    Offers (pkStream c) b (gapStep v).1
      ((pkBeat c ch first string v >>= fun x => awaitEdge >>= fun _ => pure x) s)
      (fun x s' => s'.phase = .edge ∧ x = (string.drop n, (gapStep v).2) ∧
        (n < string.length → BeatPre c s')) := by
  have hn : c.width / 8 = n := by rw [hb.width]; omega
  have hv : ∀ o, (pkStream c).valid (pkLower o) = false := fun o => rfl
  unfold pkBeat
  simp only [hn, bind_assoc]
  refine offers_gap (pkStream c) pkLower hv v hs.phase (fun t ht hto => ?_)
  have hteop : t.out.eop = .zero := by rw [hto]; split <;> exact hs.eop
  have htem : c.useEmpty = true → t.out.empty = natToBits (c.emptyW.getD 0) 0 := by
    intro hu; rw [hto]; split <;> exact hs.empty hu
  rw [bind_write _ _ _ ht, bind_silent _ _ _ _ _ (pkChannel_run c ch hc _ (by exact ht)), bind_write _ _ _ (by exact ht)]
  have htk : string.take (min string.length n) = string.take n := by
    by_cases h : string.length ≤ n
    · rw [Nat.min_eq_left h, List.take_length, List.take_of_length_le h]
    · rw [Nat.min_eq_right (by omega)]
  -- the part after the end-of-packet writes
  have tail : ∀ (u : Sim PkIn PkOut) (rest : Bytes) (p : Beat), u.phase ≠ .ro →
      u.out.valid = .one → p = (pkStream c).payload { u.out with data := wordBits c.highFirst n (string.take n) } →
      rest = string.drop n → (n < string.length → u.out.eop = .zero ∧ (c.useEmpty = true → u.out.empty = natToBits (c.emptyW.getD 0) 0)) →
      Offers (pkStream c) p 0 ((do
        let d ← ofExcept (createBinaryBytes (string.take (min string.length n)) c.width c.highFirst)
        write (fun o => { o with data := d.bits })
        when c.hasReady pkWaitReady
        let x ← pure (rest, (gapStep v).2)
        awaitEdge
        pure x : M PkIn PkOut (Bytes × Valids)) u)
      (fun x s' => s'.phase = .edge ∧ x = (string.drop n, (gapStep v).2) ∧ (n < string.length → BeatPre c s')) := by
    intro u rest p hu hval hp hrest hpre
    rw [htk, hb.width, createBinaryBytes_word c.highFirst n (string.take n) (by rw [List.length_take]; omega),
      bind_ofExcept_ok, bind_write _ _ _ hu]
    have key := offers_wait (pkStream c) c.hasReady (fun i => i.ready == .one) (fun i => rfl) p
      ({ u with out := { u.out with data := wordBits c.highFirst n (string.take n) } }) (by exact hu)
      (by simp [pkStream, hval]) hp.symm
      (fun _ s' => s'.phase = .edge ∧ (n < string.length → BeatPre c s'))
      (fun s' h1 h2 => ⟨h2, fun h => ⟨by rw [h2]; decide, by rw [h1]; exact (hpre h).1, fun hu => by rw [h1]; exact (hpre h).2 hu⟩⟩)
    have hbind : (do
        when c.hasReady pkWaitReady
        let x ← pure (rest, (gapStep v).2)
        awaitEdge
        pure x : M PkIn PkOut (Bytes × Valids)) ({ u with out := { u.out with data := wordBits c.highFirst n (string.take n) } }) =
      ((when c.hasReady (waitRO (fun i => .ok (i.ready == .one))) >>= fun _ => awaitEdge) >>= fun _ => pure (rest, (gapStep v).2))
        ({ u with out := { u.out with data := wordBits c.highFirst n (string.take n) } }) := by
      rw [bind_assoc_run]
      rfl
    show Offers (pkStream c) p 0 ((do
        when c.hasReady pkWaitReady
        let x ← pure (rest, (gapStep v).2)
        awaitEdge
        pure x : M PkIn PkOut (Bytes × Valids)) ({ u with out := { u.out with data := wordBits c.highFirst n (string.take n) } })) _
    rw [hbind, bind_run]
    obtain ⟨idle, held, k1, k2, k3⟩ := key
    refine ⟨idle, held, k1, k2, ?_⟩
    rcases k3 with ⟨s', a, b, d⟩ | ⟨hl, ⟨s', a, b⟩ | ⟨q, x, s', a, b, d, e, f⟩⟩
    · exact .inl ⟨s', by rw [a]; rfl, b, d⟩
    · exact .inr ⟨hl, .inl ⟨s', by rw [a]; rfl, b⟩⟩
    · refine .inr ⟨hl, .inr ⟨q, (rest, (gapStep v).2), s', ?_, b, d, e, f.1, by rw [hrest], f.2⟩⟩
      rw [a, andThen_ok, pure_run]; simp
  by_cases hlen : string.length ≤ n
  · -- last beat
    simp only [hlen, if_true, bind_assoc]
    rw [bind_write _ _ _ (by exact ht)]
    have hhead : (beatsFrom c n first string (chNum ch)) = _ := beatsFrom_small c n hb.pos first string (chNum ch) hne hlen
    rw [hhead, List.head?_cons, Option.some.injEq] at hbeat
    subst hbeat
    have hd : string.drop n = [] := List.drop_eq_nil_of_le hlen
    have htake : string.take n = string := List.take_of_length_le hlen
    unfold pkEmpty
    cases hu : c.useEmpty with
    | false =>
      simp only [Bool.false_eq_true, if_false]
      rw [bind_pure_run, bind_pure_run]
      refine tail _ [] _ (by exact ht) rfl ?_ hd.symm (fun h => by omega)
      simp only [pkStream, hu, Bool.false_eq_true, if_false, htake]
      cases c.channelW <;> simp
    | true =>
      simp only [if_true]
      obtain ⟨w, hw, hw2⟩ := hb.empty hu
      have hpos : 0 < string.length := List.length_pos_iff.2 hne
      rw [hw]
      simp only
      rw [if_pos (show n - string.length < 2 ^ w by omega), bind_write _ _ _ (by exact ht), bind_pure_run]
      refine tail _ [] _ (by exact ht) rfl ?_ hd.symm (fun h => by omega)
      simp only [pkStream, hu, if_true, htake, Option.getD_some]
      cases c.channelW <;> simp
  · have hhead : (beatsFrom c n first string (chNum ch)) = _ := beatsFrom_big c n hb.pos first string (chNum ch) (by omega)
    rw [hhead, List.head?_cons, Option.some.injEq] at hbeat
    subst hbeat
    simp only [hlen, if_false]
    rw [bind_pure_run]
    refine tail _ (string.drop n) _ (by exact ht) rfl ?_ rfl (fun _ => ⟨hteop, htem⟩)
    simp only [pkStream, hteop]
    cases hu : c.useEmpty with
    | false => simp only [Bool.false_eq_true, if_false]; cases c.channelW <;> simp
    | true => simp only [if_true, htem hu]; cases c.channelW <;> simp

theorem Good.pkBeat (c : PkCfg) (ch : Option Int) (first : Bool) (string : Bytes) (v : Valids) :
    Good (pkBeat c ch first string v) := by
  have hch : Good (pkChannel c ch) := by
    unfold pkChannel
    cases c.channelW with
    | none => exact Good.pure _
    | some w =>
      cases ch with
      | none => exact Good.write _
      | some x => exact Good.ite (Good.raise _) (Good.write _)
  have hem : ∀ k, Good (pkEmpty c k) := by
    intro k
    unfold pkEmpty
    refine Good.ite ?_ (Good.pure _)
    cases c.emptyW with
    | none => exact Good.raise _
    | some w => exact Good.ite (Good.write _) (Good.raise _)
  exact Good.bind (Good.gapM _ _) fun _ => Good.bind (Good.write _) fun _ => Good.bind hch fun _ => Good.bind (Good.write _) fun _ =>
    Good.bind (Good.ite (Good.bind (Good.write _) fun _ => Good.bind (hem _) fun _ => Good.pure _) (Good.pure _)) fun _ =>
    Good.bind (Good.ofExcept _) fun _ => Good.bind (Good.write _) fun _ => Good.bind (Good.when _ (Good.waitRO _)) fun _ => Good.pure _

/-- body of the loop in `pkSend` -/
def pkLoopBody (c : PkCfg) (ch : Option Int) : Bytes × Valids → M PkIn PkOut ((Bytes × Valids) ⊕ Valids) := fun x =>
  match x.1 with
  | [] => pure (.inr x.2)
  | _ => do
    awaitEdge
    let y ← pkBeat c ch false x.1 x.2
    pure (.inl y)

theorem Good.pkLoopBody (c : PkCfg) (ch : Option Int) (x : Bytes × Valids) : Good (pkLoopBody c ch x) := by
  unfold CocotbBus.pkLoopBody
  split
  · exact Good.pure _
  · exact Good.bind Good.awaitEdge fun _ => Good.bind (Good.pkBeat _ _ _ _ _) fun _ => Good.pure _

theorem good_length {I O α : Type} {x : M I O α} (h : Good x) (s : Sim I O) : (x s).2.sim.rest.length ≤ s.rest.length := by
  have := congrArg List.length (h s).1
  simp at this; omega

theorem consumes_of_edge {I O α β : Type} (s : Sim I O) (f : Unit → M I O (β ⊕ α)) (hf : Good (f ())) (t : List (O × I)) (b : β) (s' : Sim I O)
    (h : (awaitEdge >>= f) s = (t, .ok (.inl b) s')) : s'.rest.length < s.rest.length := by
  cases hr : s.rest with
  | nil => rw [bind_awaitEdge_nil _ s hr] at h; cases h
  | cons i r =>
    rw [bind_awaitEdge_cons _ s i r hr] at h
    have := good_length hf { s with phase := .edge, prev := s.cur, cur := i, rest := r }
    have h2 := congrArg Prod.snd h
    simp only at h2
    rw [h2] at this
    simp only [End.sim] at this
    simp; omega

theorem pkLoopBody_consumes (c : PkCfg) (ch : Option Int) : Consumes (pkLoopBody c ch) := by
  intro x s t b' s' h
  obtain ⟨x, v⟩ := x
  cases x with
  | nil => cases h
  | cons a r => exact consumes_of_edge s _ (Good.bind (Good.pkBeat _ _ _ _ _) fun _ => Good.pure _) t b' s' h

/-- the program after the first beat -/
def pkTail (c : PkCfg) (ch : Option Int) (x : Bytes × Valids) : M PkIn PkOut Valids := do
  let v ← loop (pkLoopBody c ch) x
  awaitEdge
  write (pkCleanup c)
  pure v

theorem pkTail_nil (c : PkCfg) (ch : Option Int) (v : Valids) :
    pkTail c ch ([], v) = (do awaitEdge; write (pkCleanup c); pure v) := by
  funext s
  unfold pkTail
  rw [bind_run, loop_unfold _ (pkLoopBody_consumes c ch), ← bind_run]
  rfl

theorem pkTail_cons (c : PkCfg) (ch : Option Int) (x : Bytes) (hx : x ≠ []) (v : Valids) :
    pkTail c ch (x, v) = (do awaitEdge; let y ← pkBeat c ch false x v; pkTail c ch y) := by
  funext s
  have hb : pkLoopBody c ch (x, v) = (do awaitEdge; let y ← pkBeat c ch false x v; pure (.inl y)) := by
    unfold pkLoopBody
    cases x with
    | nil => exact absurd rfl hx
    | cons => rfl
  unfold pkTail
  rw [bind_run, loop_unfold _ (pkLoopBody_consumes c ch), ← bind_run, hb]
  simp only [bind_assoc, pure_bind]

/-- the remaining beats of a packet -/
theorem pkTail_runs (c : PkCfg) (n : Nat) (hb : ByteBus c n) (ch : Option Int) (hc : ChannelOk c ch) (k : Nat) :
    ∀ (first : Bool) (string : Bytes), string ≠ [] → string.length ≤ k → ∀ (v : Valids) (s : Sim PkIn PkOut), BeatPre c s →
    Runs (pkStream c) (beatsFrom c n first string (chNum ch)) (gaps (beatCount n string.length) v)
      ((pkBeat c ch first string v >>= pkTail c ch) s)
      (fun v' s' => s'.phase = .edge ∧ s'.out.valid = .zero ∧ v' = gapIter (beatCount n string.length) v) := by
  induction k with
  | zero => intro first string hne hl; exact absurd (List.eq_nil_of_length_eq_zero (by omega)) hne
  | succ k ih =>
    intro first string hne hl v s hs
    have hpos : 0 < string.length := List.length_pos_iff.2 hne
    by_cases hlen : string.length ≤ n
    · have heq := beatsFrom_small c n hb.pos first string (chNum ch) hne hlen
      have hoff := pkBeat_offers c n hb ch hc first string hne _ (by rw [heq]; rfl) v s hs
      have hd : string.drop n = [] := List.drop_eq_nil_of_le hlen
      rw [beatCount_small n _ hb.pos hpos hlen, heq]
      have hprog : (pkBeat c ch first string v >>= pkTail c ch) s =
          ((pkBeat c ch first string v >>= fun x => awaitEdge >>= fun _ => pure x) >>= fun x =>
            if x.1 = [] then (write (pkCleanup c) >>= fun _ => pure x.2)
            else (pkBeat c ch false x.1 x.2 >>= pkTail c ch)) s := by
        simp only [bind_assoc, pure_bind]
        have hf : pkTail c ch = fun x => (awaitEdge >>= fun _ =>
            if x.1 = [] then (write (pkCleanup c) >>= fun _ => pure x.2)
            else (pkBeat c ch false x.1 x.2 >>= pkTail c ch)) := by
          funext x
          obtain ⟨a, w⟩ := x
          cases a with
          | nil => rw [pkTail_nil]; rfl
          | cons a r => rw [pkTail_cons _ _ _ (by simp)]; rfl
        exact congrArg (fun g => (pkBeat c ch first string v >>= g) s) hf
      rw [hprog]
      have := Runs.bind (pkStream c) (l' := []) (ns' := []) rfl (Offers.runs _ hoff) (f := fun x =>
            if x.1 = [] then (write (pkCleanup c) >>= fun _ => pure x.2)
            else (pkBeat c ch false x.1 x.2 >>= pkTail c ch))
        (post' := fun v' s' => s'.phase = .edge ∧ s'.out.valid = .zero ∧ v' = gapIter 1 v) (by
          rintro x s' ⟨h1, rfl, -⟩
          simp only [hd, if_true]
          rw [bind_write _ _ _ (by rw [h1]; decide), pure_run]
          exact Runs.nil _ _ _ _ ⟨h1, rfl, rfl⟩)
      exact this
    · have heq := beatsFrom_big c n hb.pos first string (chNum ch) (by omega)
      have hoff := pkBeat_offers c n hb ch hc first string hne _ (by rw [heq]; rfl) v s hs
      have hdl : (string.drop n).length = string.length - n := List.length_drop
      have hd : string.drop n ≠ [] := by
        intro h; rw [h] at hdl; simp at hdl; omega
      rw [beatCount_big n _ hb.pos (by omega), heq]
      have hprog : (pkBeat c ch first string v >>= pkTail c ch) s =
          ((pkBeat c ch first string v >>= fun x => awaitEdge >>= fun _ => pure x) >>= fun x =>
            if x.1 = [] then (write (pkCleanup c) >>= fun _ => pure x.2)
            else (pkBeat c ch false x.1 x.2 >>= pkTail c ch)) s := by
        simp only [bind_assoc, pure_bind]
        have hf : pkTail c ch = fun x => (awaitEdge >>= fun _ =>
            if x.1 = [] then (write (pkCleanup c) >>= fun _ => pure x.2)
            else (pkBeat c ch false x.1 x.2 >>= pkTail c ch)) := by
          funext x
          obtain ⟨a, w⟩ := x
          cases a with
          | nil => rw [pkTail_nil]; rfl
          | cons a r => rw [pkTail_cons _ _ _ (by simp)]; rfl
        exact congrArg (fun g => (pkBeat c ch first string v >>= g) s) hf
      rw [hprog]
      have := Runs.bind (pkStream c) (l' := beatsFrom c n false (string.drop n) (chNum ch))
        (ns' := gaps (beatCount n (string.length - n)) (gapStep v).2) rfl (Offers.runs _ hoff) (f := fun x =>
            if x.1 = [] then (write (pkCleanup c) >>= fun _ => pure x.2)
            else (pkBeat c ch false x.1 x.2 >>= pkTail c ch))
        (post' := fun v' s' => s'.phase = .edge ∧ s'.out.valid = .zero ∧ v' = gapIter (beatCount n (string.length - n) + 1) v) (by
          rintro x s' ⟨h1, rfl, h2⟩
          simp only [hd, if_false]
          have := ih false (string.drop n) hd (by rw [hdl]; have := hb.pos; omega) (gapStep v).2 s' (h2 (by omega))
          rw [hdl] at this
          exact this)
      exact this

/-- add to the first element -/
def addFirst (k : Nat) : List Nat → List Nat
  | [] => []
  | x :: r => (k + x) :: r

theorem Runs.edge {I O P α : Type} (V : Stream I O P) {p : P} {l : List P} {m : Nat} {ns : List Nat} {s : Sim I O} {k : Unit → M I O α}
    {post : α → Sim I O → Prop} (hv : V.valid s.out = false)
    (h : ∀ i r, s.rest = i :: r → Runs V (p :: l) (m :: ns) (k () { s with phase := .edge, prev := s.cur, cur := i, rest := r }) post) :
    Runs V (p :: l) ((1 + m) :: ns) ((awaitEdge >>= k) s) post := by
  cases hr : s.rest with
  | nil =>
    rw [bind_awaitEdge_nil _ s hr]
    exact ⟨0, by simp, rfl, rfl, trivial, by simp [idles], .inr ⟨by simp, s, rfl, fun h => by simp [hv] at h⟩⟩
  | cons i r =>
    obtain ⟨j, hj, h1, h2, h3, h4, h5⟩ := h i r hr
    rw [bind_awaitEdge_cons _ s i r hr]
    have hx : V.xfer (s.out, s.cur) = false := by simp [Stream.xfer, hv]
    have hid : ∀ (t : List (O × I)) (a b : Nat), (V.idleBefore (a + b) t = addFirst a (V.idleBefore b t)) ∧
        (V.taken t ≠ [] → V.trail (a + b) t = V.trail b t) := by
      intro t
      induction t with
      | nil => intro a b; exact ⟨rfl, by simp [Stream.taken]⟩
      | cons q t ih =>
        intro a b
        rcases Bool.eq_false_or_eq_true (V.xfer q) with h | h
        · simp [Stream.idleBefore, Stream.trail, h, addFirst]
        · have ht : V.taken (q :: t) = V.taken t := by simp [Stream.taken, h]
          rw [ht]
          rcases Bool.eq_false_or_eq_true (V.valid q.1) with h' | h'
          · simp only [Stream.idleBefore, Stream.trail, h, h', Bool.false_eq_true, if_false, if_true]
            exact ih a b
          · simp only [Stream.idleBefore, Stream.trail, h, h', Bool.false_eq_true, if_false]
            exact ih a (b + 1)
    refine ⟨j, hj, ?_, ?_, ?_, ?_, ?_⟩
    · rw [← h1]; simp [Stream.taken, hx]
    · simp only [Stream.idleBefore, hx, hv, Bool.false_eq_true, if_false]
      rw [show (0 + 1 : Nat) = 1 + 0 from rfl, (hid _ 1 0).1, h2]
      cases j <;> simp [addFirst]
    · exact holds_cons_free V _ _ (.inl hv) h3
    · have : idles V ((s.out, s.cur) :: (k () { s with phase := .edge, prev := s.cur, cur := i, rest := r }).1) =
        (s.out, s.cur) :: idles V (k () { s with phase := .edge, prev := s.cur, cur := i, rest := r }).1 := by simp [idles, hv]
      rw [this]
      simp only [List.length_cons, List.sum_cons] at h4 ⊢
      omega
    · rcases h5 with ⟨h5, h6, h7, h8⟩ | h5
      · refine .inl ⟨h5, ?_, ?_, h8⟩
        · simp only [Stream.trail, hx, hv, Bool.false_eq_true, if_false]
          rw [show (0 + 1 : Nat) = 1 + 0 from rfl, (hid _ 1 0).2 (by rw [h1, h5]; simp), h6]
        · intro q hq
          cases hg : (k () { s with phase := .edge, prev := s.cur, cur := i, rest := r }).1 with
          | nil =>
            exfalso
            rw [hg] at h1
            rw [h5] at h1
            simp [Stream.taken] at h1
          | cons a b =>
            rw [hg] at h7
            simp only [hg, List.getLast?_cons_cons] at hq
            exact h7 q hq
      · exact .inr h5

theorem beatsFrom_ne (c : PkCfg) (n : Nat) (hn : 0 < n) (first : Bool) (pkt : Bytes) (h : pkt ≠ []) (ch : Nat) :
    ∃ b l, beatsFrom c n first pkt ch = b :: l := by
  have := beatCount_pos n pkt.length hn (List.length_pos_iff.2 h)
  cases hb : beatsFrom c n first pkt ch with
  | nil =>
    have h2 : (beatsFrom c n first pkt ch).length = 0 := by rw [hb]; rfl
    simp only [beatsFrom, List.length_map, List.length_range] at h2
    omega
  | cons b l => exact ⟨b, l, rfl⟩

theorem beatsFrom_length (c : PkCfg) (n : Nat) (first : Bool) (pkt : Bytes) (ch : Nat) :
    (beatsFrom c n first pkt ch).length = beatCount n pkt.length := by simp [beatsFrom]

/-- one packet on any schedule -/
theorem pkSend_runs (c : PkCfg) (n : Nat) (hb : ByteBus c n) (pkt : Bytes) (hne : pkt ≠ []) (sync : Bool) (ch : Option Int)
    (hc : ChannelOk c ch) (v : Valids) (s : Sim PkIn PkOut) (hs : s.phase ≠ .ro) :
    Runs (pkStream c) (beatsOf c n pkt (chNum ch)) (addFirst (syncEdges sync) (gaps (beatCount n pkt.length) v))
      (pkSend c pkt sync ch v s)
      (fun v' s' => s'.phase = .edge ∧ s'.out.valid = .zero ∧ v' = gapIter (beatCount n pkt.length) v) := by
  have hnoraise : (c.channelW.isNone && ch.isSome) = false := by
    unfold ChannelOk at hc
    cases hw : c.channelW with
    | none => rw [hw] at hc; simp only at hc; subst hc; rfl
    | some w => rfl
  have hprog : pkSend c pkt sync ch v s =
      (write (pkDefaults c) >>= fun _ => when sync awaitEdge >>= fun _ => pkBeat c ch true pkt v >>= pkTail c ch) s := by
    unfold pkSend
    rw [hnoraise]
    cases pkt with
    | nil => exact absurd rfl hne
    | cons a r =>
      simp only [when, Bool.false_eq_true, if_false, pure_bind, bind_assoc]
      rfl
  rw [hprog, beatsOf_eq, bind_write _ _ _ hs]
  obtain ⟨b, l, hbl⟩ := beatsFrom_ne c n hb.pos true pkt hne (chNum ch)
  have hpos := beatCount_pos n pkt.length hb.pos (List.length_pos_iff.2 hne)
  have hg : ∃ m, beatCount n pkt.length = m + 1 := ⟨_, (Nat.succ_pred_eq_of_pos hpos).symm⟩
  obtain ⟨m, hm⟩ := hg
  have hpre : ∀ t : Sim PkIn PkOut, t.phase ≠ .ro → t.out = pkDefaults c s.out → BeatPre c t := by
    intro t h1 h2
    refine ⟨h1, by rw [h2]; rfl, fun hu => by rw [h2]; simp [pkDefaults, hu]⟩
  cases sync with
  | false =>
    simp only [when, Bool.false_eq_true, if_false, pure_bind]
    have := pkTail_runs c n hb ch hc pkt.length true pkt hne (Nat.le_refl _) v
      { s with out := pkDefaults c s.out } (hpre _ hs rfl)
    rw [hm] at this ⊢
    simp only [gaps, addFirst, syncEdges] at this ⊢
    simpa using this
  | true =>
    simp only [when, if_true]
    rw [hbl, hm, gaps]
    simp only [addFirst, syncEdges, if_true]
    refine Runs.edge (pkStream c) rfl (fun i r hr => ?_)
    have := pkTail_runs c n hb ch hc pkt.length true pkt hne (Nat.le_refl _) v
      { phase := .edge, out := pkDefaults c s.out, prev := s.cur, cur := i, rest := r } (hpre _ (by simp) rfl)
    rw [hbl, hm, gaps] at this
    exact this

/-- idle edges before each beat of a sequence of packets -/
def itemGaps (n : Nat) : List PkItem → Valids → List Nat
  | [], _ => []
  | p :: r, v => addFirst (syncEdges p.sync) (gaps (beatCount n p.pkt.length) v) ++
      itemGaps n r (gapIter (beatCount n p.pkt.length) v)

theorem addFirst_length (k : Nat) (l : List Nat) : (addFirst k l).length = l.length := by cases l <;> rfl

/-- several packets on any schedule -/
theorem pkSendAll_runs (c : PkCfg) (n : Nat) (hb : ByteBus c n) (items : List PkItem) :
    (∀ p ∈ items, p.pkt ≠ [] ∧ ChannelOk c p.channel) → ∀ (v : Valids) (s : Sim PkIn PkOut), s.phase ≠ .ro →
    Runs (pkStream c) (items.flatMap (fun p => beatsOf c n p.pkt (chNum p.channel))) (itemGaps n items v)
      (pkSendAll c items v s) (fun _ s' => s'.phase ≠ .ro ∧ (s'.out.valid = .zero ∨ (items = [] ∧ s' = s))) := by
  induction items with
  | nil => intro _ v s hs; exact Runs.nil _ _ _ _ ⟨hs, .inr ⟨rfl, rfl⟩⟩
  | cons p r ih =>
    intro hp v s hs
    obtain ⟨h1, h2⟩ := hp p (by simp)
    rw [List.flatMap_cons, itemGaps]
    refine Runs.bind (pkStream c) ?_ (pkSend_runs c n hb p.pkt h1 p.sync p.channel h2 v s hs) ?_
    · rw [addFirst_length, gaps_length, beatsOf_eq, beatsFrom_length]
    · rintro v' s' ⟨a, b, rfl⟩
      have := ih (fun q hq => hp q (by simp [hq])) (gapIter (beatCount n p.pkt.length) v) s' (by rw [a]; decide)
      refine Runs.mono _ this ?_
      rintro v2 s2 ⟨d, e⟩
      refine ⟨d, .inl ?_⟩
      rcases e with e | ⟨-, rfl⟩
      · exact e
      · exact b

theorem zipWith_replicate_zero (m : Nat) (l : List Nat) (h : l.length = m) : List.zipWith (· + ·) (List.replicate m 0) l = l := by
  induction m generalizing l with
  | zero => simp at h; simp [h]
  | succ m ih =>
    cases l with
    | nil => simp at h
    | cons x l => simp [List.replicate_succ, ih l (by simpa using h)]

/-- synchronisation edge before each beat -/
def syncsOf (n : Nat) (p : PkItem) : List Nat := syncEdges p.sync :: List.replicate (beatCount n p.pkt.length - 1) 0

theorem itemGaps_eq (n : Nat) (hn : 0 < n) (items : List PkItem) (h : ∀ p ∈ items, p.pkt ≠ []) : ∀ v : Valids,
    itemGaps n items v = List.zipWith (· + ·) (items.flatMap (syncsOf n)) (gaps (items.flatMap (syncsOf n)).length v) := by
  induction items with
  | nil => intro v; rfl
  | cons p r ih =>
    intro v
    have hpos := beatCount_pos n p.pkt.length hn (List.length_pos_iff.2 (h p (by simp)))
    obtain ⟨m, hm⟩ : ∃ m, beatCount n p.pkt.length = m + 1 := ⟨_, (Nat.succ_pred_eq_of_pos hpos).symm⟩
    have hl : (syncsOf n p).length = m + 1 := by simp [syncsOf, hm]
    rw [itemGaps, ih (fun q hq => h q (by simp [hq])), List.flatMap_cons, List.length_append, gaps_add, hl,
      List.zipWith_append (by rw [hl, gaps_length])]
    congr 1
    · rw [hm, gaps, addFirst, syncsOf, hm, List.zipWith_cons_cons, Nat.add_sub_cancel, zipWith_replicate_zero _ _ (gaps_length _ _)]
    · rw [hm]

theorem Good.pkSend (c : PkCfg) (pkt : Bytes) (sync : Bool) (ch : Option Int) (v : Valids) : Good (pkSend c pkt sync ch v) := by
  refine Good.bind (Good.write _) fun _ => Good.bind (Good.when _ (Good.raise _)) fun _ => Good.bind ?_ fun _ =>
    Good.bind Good.awaitEdge fun _ => Good.bind (Good.write _) fun _ => Good.pure _
  cases pkt with
  | nil => exact Good.pure _
  | cons a r =>
    exact Good.bind (Good.when _ Good.awaitEdge) fun _ => Good.bind (Good.pkBeat _ _ _ _ _) fun _ =>
      Good.loop _ (pkLoopBody_consumes c ch) (Good.pkLoopBody c ch) _

theorem Good.pkSendAll (c : PkCfg) (l : List PkItem) : ∀ v, Good (pkSendAll c l v) := by
  induction l with
  | nil => intro v; exact Good.pure _
  | cons p r ih => intro v; exact Good.bind (Good.pkSend _ _ _ _ _) fun _ => ih _

/-- progress for anything that runs a stream: if it is blocked, the schedule did not have enough ready edges -/
theorem Runs.progress {I O P α : Type} (V : Stream I O P) {x : M I O α} (hg : Good x) {s : Sim I O} {l : List P} {ns : List Nat}
    {post : α → Sim I O → Prop} (h : Runs V l ns (x s) post)
    (hr : l.length + ns.sum ≤ ((s.cur :: s.rest).dropLast.filter (fun i => V.ready i)).length) :
    ∃ a s', (x s).2 = .ok a s' ∧ post a s' := by
  obtain ⟨k, hk, h1, -, -, h3, ⟨-, -, -, h4⟩ | ⟨h4, s', h5, -⟩⟩ := h
  · exact h4
  · exfalso
    obtain ⟨g1, g2⟩ := hg s
    have g3 := g2 s' h5
    rw [h5] at g1
    simp only [End.sim, g3] at g1
    rw [g1, List.dropLast_concat] at hr
    have hc := ready_count_stream V (x s).1
    rw [List.filter_map, List.length_map] at hr
    rw [h1, List.length_take, Nat.min_eq_left hk] at hc
    simp only [Function.comp_def] at hr
    omega

end CocotbBus
