import Verif.Proof.Cancel
import Verif.Proof.InOrder
import Verif.Props.AxiRead
import Verif.Props.Session

/-! # C86 to C89: operations cancelled in the middle -/

namespace CocotbBus
open Spec Coro

/-! ### C86: Avalon-ST -/

/-- C86 is false of the code: cancelling (or `kill()`ing) a driver during a send leaves valid at 1, so the word in flight, sent
once, is transferred again at every edge at which the sink is ready. -/
theorem C86_violated : ¬ ∀ (cfg : StCfg) (acts : List (Act (AvVal × Bool))) (word : AvVal → LogicArray),
    (∀ x ∈ sends acts, ∃ d, createBinary x.1 cfg.width false = .ok d ∧ d.bits = word x.1) →
    ∀ (n m : Nat) (s : Sim StIn StOut), s.phase ≠ .ro →
      transferred cfg.hasReady ((do cancelAfter n (stTest cfg acts); edges m) s).1 <+: (sends acts).map (fun x => word x.1) := by
  intro h
  have := h ⟨8, true, true⟩ [.send (.int 1, true)] (fun _ => natToBits 8 1) (by
    intro x hx
    simp only [sends, List.mem_singleton] at hx
    subst hx
    exact ⟨.array (natToBits 8 1), by decide +kernel, rfl⟩) 2 3
    ⟨.mid, ⟨.zero, []⟩, ⟨.zero⟩, ⟨.zero⟩, [⟨.zero⟩, ⟨.zero⟩, ⟨.one⟩, ⟨.one⟩, ⟨.one⟩]⟩ (by decide)
  revert this
  decide +kernel

/-- C86, what does hold: whatever the use of the driver, the time `n` of the cancellation, the number of edges after it and the
schedule, the words transferred are the sent words in order up to some point, followed by repetitions of the next one only. -/
theorem C86_repeats_partial (cfg : StCfg) (acts : List (Act (AvVal × Bool))) (word : AvVal → LogicArray)
    (hx : ∀ x ∈ sends acts, ∃ d, createBinary x.1 cfg.width false = .ok d ∧ d.bits = word x.1)
    (n m : Nat) (s : Sim StIn StOut) (hs : s.phase ≠ .ro) :
    let words := (sends acts).map (fun x => word x.1)
    let r := (do cancelAfter n (stTest cfg acts); edges m) s
    ∃ k j w, k ≤ words.length ∧ (0 < j → words[k]? = some w) ∧ transferred cfg.hasReady r.1 = words.take k ++ List.replicate j w := by
  obtain ⟨k, hk, -⟩ := cancel_stopped (stStream cfg) n (stTest cfg acts) (Good.stTest cfg acts) _ s
    (fun s hs => stTest_passes cfg acts word hx s hs) hs
  rcases stopped_edges (stStream cfg) _ _ s k hk m with ⟨j, b, h1, h2⟩ | h
  · exact ⟨k, j, b, hk.le, h1, by rw [transferred_taken_eq]; exact h2⟩
  · exact ⟨k, 0, [], hk.le, by simp, by rw [transferred_taken_eq]; simpa using h⟩

/-- C86 holds if valid is not 1 when the driver is cancelled (it was idle, or in a programmed gap). -/
theorem C86_idle_partial (cfg : StCfg) (acts : List (Act (AvVal × Bool))) (word : AvVal → LogicArray)
    (hx : ∀ x ∈ sends acts, ∃ d, createBinary x.1 cfg.width false = .ok d ∧ d.bits = word x.1)
    (n m : Nat) (s : Sim StIn StOut) (hs : s.phase ≠ .ro)
    (hv : (cancelAfter n (stTest cfg acts) s).2.sim.out.valid ≠ .one) :
    transferred cfg.hasReady ((do cancelAfter n (stTest cfg acts); edges m) s).1 <+: (sends acts).map (fun x => word x.1) := by
  obtain ⟨k, hk, -⟩ := cancel_stopped (stStream cfg) n (stTest cfg acts) (Good.stTest cfg acts) _ s
    (fun s hs => stTest_passes cfg acts word hx s hs) hs
  rw [transferred_taken_eq, stopped_idle (stStream cfg) _ _ s k hk (by simpa [stStream] using hv) m]
  exact List.take_prefix _ _

/-- C86 holds if the driver is used again in the cycle in which it was cancelled: the words transferred are words of the first use,
in order up to some point, followed by those of the second, each once. -/
theorem C86_resume_partial (cfg : StCfg) (acts acts' : List (Act (AvVal × Bool))) (x : AvVal × Bool) (word : AvVal → LogicArray)
    (hx : ∀ x ∈ sends acts, ∃ d, createBinary x.1 cfg.width false = .ok d ∧ d.bits = word x.1)
    (hx' : ∀ y ∈ x :: sends acts', ∃ d, createBinary y.1 cfg.width false = .ok d ∧ d.bits = word y.1)
    (n : Nat) (v : Valids) (s : Sim StIn StOut) (hs : s.phase ≠ .ro) :
    let words := (sends acts).map (fun x => word x.1)
    let words' := (x :: sends acts').map (fun x => word x.1)
    let r := (do cancelAfter n (stTest cfg acts); session (fun (x : AvVal × Bool) v => stSend cfg x.1 x.2 v) (.send x :: acts') v) s
    ∃ k, (∃ k', transferred cfg.hasReady r.1 = words.take k ++ words'.take k') ∧
      (∀ v' s', r.2 = .ok v' s' → transferred cfg.hasReady r.1 = words.take k ++ words') ∧ (∀ e s', r.2 ≠ .err e s') := by
  intro words words' r
  obtain ⟨k, hk, hph⟩ := cancel_stopped (stStream cfg) n (stTest cfg acts) (Good.stTest cfg acts) _ s
    (fun s hs => stTest_passes cfg acts word hx s hs) hs
  have hsend : ∀ (y : AvVal × Bool) v (s : Sim StIn StOut), (∃ d, createBinary y.1 cfg.width false = .ok d ∧ d.bits = word y.1) → s.phase ≠ .ro →
      Passes (stStream cfg) [word y.1] (stSend cfg y.1 y.2 v s) (fun _ s' => IdleBus (stStream cfg) s') := by
    intro y v s hd hs
    obtain ⟨d, h1, h2⟩ := hd
    rw [← h2]
    exact stSend_passes cfg y.1 d h1 y.2 v s hs
  have hy : ∀ s : Sim StIn StOut, s.phase ≠ .ro →
      Passes (stStream cfg) words' (session (fun x v => stSend cfg x.1 x.2 v) (.send x :: acts') v s) (fun _ s' => IdleBus (stStream cfg) s') := by
    intro s hs
    refine Passes.bind _ (hsend x v s (hx' x (by simp)) hs) (fun v' s' h => ?_)
    have := session_passes (stStream cfg) (fun (x : AvVal × Bool) v => stSend cfg x.1 x.2 v)
      (fun x => ∃ d, createBinary x.1 cfg.width false = .ok d ∧ d.bits = word x.1) (fun x => [word x.1]) hsend acts'
      (fun y hy => hx' y (by simp [hy])) v' s' h
    rw [← List.map_eq_flatMap] at this
    exact this
  obtain ⟨h1, h2, h3⟩ := stopped_then (stStream cfg) _ _ _ _ s k hk hph _ hy
  simp only [transferred_taken_eq]
  exact ⟨k, h1, h2, h3⟩

/-- cancelled with the second of three words on the pins, used again at once: the first word, then those of the second use -/
example :
    let r := (do
      cancelAfter 4 (stTest ⟨8, true, true⟩ [.send (.int 1, true), .send (.int 2, true), .send (.int 3, true)])
      session (fun x v => stSend ⟨8, true, true⟩ x.1 x.2 v) [.send (.int 9, false), .pause 1, .send (.int 10, true)] (setValidGenerator none) :
        M StIn StOut Valids)
      (⟨.mid, ⟨.zero, []⟩, ⟨.one⟩, ⟨.one⟩, [⟨.one⟩, ⟨.one⟩, ⟨.zero⟩, ⟨.zero⟩, ⟨.one⟩, ⟨.one⟩, ⟨.one⟩, ⟨.one⟩, ⟨.one⟩]⟩ : Sim StIn StOut)
    transferred true r.1 = [natToBits 8 1, natToBits 8 9, natToBits 8 10] ∧ r.2.isOk = true := by decide +kernel

/-- cancelled in a gap -/
example : (cancelAfter 2 (stTest ⟨8, true, true⟩ [.gen (some [(1, 2), (1, 2)]), .send (.int 1, false), .send (.int 2, true)])
      (⟨.mid, ⟨.zero, []⟩, ⟨.one⟩, ⟨.one⟩, [⟨.one⟩, ⟨.one⟩, ⟨.zero⟩, ⟨.zero⟩, ⟨.one⟩]⟩ : Sim StIn StOut)).2.sim.out.valid ≠ .one := by
  decide +kernel

/-! ### C86: packets -/

/-- C86 for packets is false of the code as well: one beat of a cancelled send is accepted several times. -/
theorem C86_packets_violated : ¬ ∀ (c : PkCfg) (w : Nat), ByteBus c w → ∀ (acts : List (Act PkItem)),
    (∀ p ∈ sends acts, p.pkt ≠ [] ∧ ChannelOk c p.channel) → ∀ (n m : Nat) (s : Sim PkIn PkOut), s.phase ≠ .ro →
      (pkStream c).taken ((do cancelAfter n (pkTest c acts); edges m) s).1 <+:
        (sends acts).flatMap (fun p => beatsOf c w p.pkt (p.channel.getD 0).toNat) := by
  intro h
  have := h (exCfg 4 true) 4 exCfg_bus [.send ⟨[1, 2, 3, 4, 5, 6], true, some 5⟩] (by
    intro p hp
    simp only [sends, List.mem_singleton] at hp
    subst hp
    exact ⟨by simp, by simp [ChannelOk, exCfg]⟩) 2 3 ⟨.mid, ⟨.x, .x, .x, [], [], []⟩, rdy .one, rdy .one, List.replicate 5 (rdy .one)⟩ (by decide)
  have hlen := this.length_le
  revert hlen
  clear this
  decide +kernel

/-- C86 for packets, what does hold: the beats of the packets in order up to some point, then repetitions of the next beat only. -/
theorem C86_packets_repeats_partial (c : PkCfg) (w : Nat) (hb : ByteBus c w) (acts : List (Act PkItem))
    (hi : ∀ p ∈ sends acts, p.pkt ≠ [] ∧ ChannelOk c p.channel) (n m : Nat) (s : Sim PkIn PkOut) (hs : s.phase ≠ .ro) :
    let beats := (sends acts).flatMap (fun p => beatsOf c w p.pkt (p.channel.getD 0).toNat)
    let r := (do cancelAfter n (pkTest c acts); edges m) s
    (∃ k ≤ beats.length, (pkStream c).taken r.1 = beats.take k) ∨
    ∃ k j b, beats[k]? = some b ∧ (pkStream c).taken r.1 = beats.take k ++ List.replicate j b := by
  intro beats r
  obtain ⟨k, hk, -⟩ := cancel_stopped (pkStream c) n (pkTest c acts) (Good.pkTest c acts) _ s
    (fun s hs => pkTest_passes c w hb acts hi s hs) hs
  rcases stopped_edges (pkStream c) _ _ s k hk m with ⟨j, b, h1, h2⟩ | h
  · rcases Nat.eq_zero_or_pos j with rfl | hj
    · exact .inl ⟨k, hk.le, by rw [List.replicate_zero, List.append_nil] at h2; exact h2⟩
    · exact .inr ⟨k, j, b, h1 hj, h2⟩
  · exact .inl ⟨k, hk.le, h⟩

/-- C86 for packets holds if valid is not 1 when the driver is cancelled. -/
theorem C86_packets_idle_partial (c : PkCfg) (w : Nat) (hb : ByteBus c w) (acts : List (Act PkItem))
    (hi : ∀ p ∈ sends acts, p.pkt ≠ [] ∧ ChannelOk c p.channel) (n m : Nat) (s : Sim PkIn PkOut) (hs : s.phase ≠ .ro)
    (hv : (cancelAfter n (pkTest c acts) s).2.sim.out.valid ≠ .one) :
    (pkStream c).taken ((do cancelAfter n (pkTest c acts); edges m) s).1 <+:
      (sends acts).flatMap (fun p => beatsOf c w p.pkt (p.channel.getD 0).toNat) := by
  obtain ⟨k, hk, -⟩ := cancel_stopped (pkStream c) n (pkTest c acts) (Good.pkTest c acts) _ s
    (fun s hs => pkTest_passes c w hb acts hi s hs) hs
  rw [stopped_idle (pkStream c) _ _ s k hk (by simpa [pkStream] using hv) m]
  exact List.take_prefix _ _

/-- C86 for packets, used again in the cycle of the cancellation: the beats of the new packets follow, each accepted once (the
packet cut short is not terminated, see C37 for what the monitor makes of it). -/
theorem C86_packets_resume_partial (c : PkCfg) (w : Nat) (hb : ByteBus c w) (acts acts' : List (Act PkItem)) (p : PkItem)
    (hi : ∀ p ∈ sends acts, p.pkt ≠ [] ∧ ChannelOk c p.channel) (hi' : ∀ q ∈ p :: sends acts', q.pkt ≠ [] ∧ ChannelOk c q.channel)
    (n : Nat) (v : Valids) (s : Sim PkIn PkOut) (hs : s.phase ≠ .ro) :
    let beats := (sends acts).flatMap (fun p => beatsOf c w p.pkt (p.channel.getD 0).toNat)
    let beats' := (p :: sends acts').flatMap (fun p => beatsOf c w p.pkt (p.channel.getD 0).toNat)
    let r := (do cancelAfter n (pkTest c acts); session (fun (p : PkItem) v => pkSend c p.pkt p.sync p.channel v) (.send p :: acts') v) s
    ∃ k, (∃ k', (pkStream c).taken r.1 = beats.take k ++ beats'.take k') ∧
      (∀ v' s', r.2 = .ok v' s' → (pkStream c).taken r.1 = beats.take k ++ beats') ∧ (∀ e s', r.2 ≠ .err e s') := by
  intro beats beats' r
  obtain ⟨k, hk, hph⟩ := cancel_stopped (pkStream c) n (pkTest c acts) (Good.pkTest c acts) _ s
    (fun s hs => pkTest_passes c w hb acts hi s hs) hs
  have hsend : ∀ (q : PkItem) v (s : Sim PkIn PkOut), (q.pkt ≠ [] ∧ ChannelOk c q.channel) → s.phase ≠ .ro →
      Passes (pkStream c) (beatsOf c w q.pkt (chNum q.channel)) (pkSend c q.pkt q.sync q.channel v s) (fun _ s' => IdleBus (pkStream c) s') :=
    fun q v s hq hs => Passes.mono _ (Runs.passes _ (pkSend_runs c w hb q.pkt hq.1 q.sync q.channel hq.2 v s hs))
      (fun v' s' h => ⟨by rw [h.1]; decide, by simp [pkStream, h.2.1]⟩)
  have hy : ∀ s : Sim PkIn PkOut, s.phase ≠ .ro →
      Passes (pkStream c) beats' (session (fun p v => pkSend c p.pkt p.sync p.channel v) (.send p :: acts') v s) (fun _ s' => IdleBus (pkStream c) s') := by
    intro s hs
    refine Passes.bind _ (hsend p v s (hi' p (by simp)) hs) (fun v' s' h => ?_)
    exact session_passes (pkStream c) (fun (p : PkItem) v => pkSend c p.pkt p.sync p.channel v)
      (fun p => p.pkt ≠ [] ∧ ChannelOk c p.channel) (fun p => beatsOf c w p.pkt (chNum p.channel)) hsend acts'
      (fun y hy => hi' y (by simp [hy])) v' s' h
  obtain ⟨h1, h2, h3⟩ := stopped_then (pkStream c) _ _ _ _ s k hk hph _ hy
  exact ⟨k, h1, h2, h3⟩

/-! ### C87: a read or write of a memory-mapped master given up -/

/-- C87 never holds for an Avalon-MM master: whatever the call `op`, if it is cancelled before it has ended then no later call `op'`,
after any number of edges and whatever the slave does, ever ends. -/
theorem C87_never (c : MmCfg) (op op' : MmOp) (hop : OpOk c op) (hop' : OpOk c op') (hc : ∀ n, op ≠ .pause n) (hc' : ∀ n, op' ≠ .pause n)
    (n m : Nat) (s : Sim MmIn MmOut) (hf : s.out.busy = false) (hn : n ≤ s.rest.length)
    (hx : result (mmStep c op { s with rest := s.rest.take n }) = none) :
    result ((do cancelAfter n (mmStep c op); edges m; mmStep c op') s) = none := by
  have hb : ∀ s', (mmStep c op { s with rest := s.rest.take n }).2 = .blocked s' → s'.out.busy = true ∧ s'.rest = [] := fun s' h =>
    mmStep_blocked c op hop hc { s with rest := s.rest.take n } hf _ s' (Prod.ext rfl h)
  refine cancel_then n m _ _ s hn (fun s' h => (hb s' h).2) hx (fun s' h => ?_)
  have hbusy : s'.out.busy = true := by
    rw [h]
    cases hr : (mmStep c op { s with rest := s.rest.take n }).2 with
    | ok a s2 => unfold result at hx; rw [hr] at hx; cases hx
    | err e s2 => unfold result at hx; rw [hr] at hx; cases hx
    | blocked s2 => exact (hb s2 hr).1
  rw [mmStep_busy c op' hop' hc' s' hbusy]
  rfl

/-- C87 is false of the code: a read answered too late for the caller leaves the master unusable, although the slave is ready. -/
theorem C87_violated : ¬ ∀ (c : MmCfg) (op op' : MmOp), OpOk c op → OpOk c op' → ∀ (n m : Nat) (s : Sim MmIn MmOut), s.out.busy = false →
    (∀ i ∈ s.rest.drop n, i.waitrequest = .zero ∧ i.readdatavalid = .one) → n + m + 6 ≤ s.rest.length →
    result ((do cancelAfter n (mmStep c op); edges m; mmStep c op') s) ≠ none := by
  intro h
  let c : MmCfg := { addrW := 8, dataW := 8 }
  let s : Sim MmIn MmOut := ⟨.mid, ⟨[], [], [], .zero, .zero, .zero, false⟩, ⟨.zero, .zero, []⟩, ⟨.zero, .zero, []⟩,
    [⟨.one, .zero, []⟩, ⟨.one, .zero, []⟩] ++ List.replicate 8 ⟨.zero, .one, natToBits 8 7⟩⟩
  refine h c (.read 3) (.write 5 6) ⟨by decide, by decide⟩ ⟨by decide, by decide, by decide⟩ 2 1 s rfl (by decide +kernel) (by decide +kernel) ?_
  exact C87_never c (.read 3) (.write 5 6) ⟨by decide, by decide⟩ ⟨by decide, by decide, by decide⟩ (by simp) (by simp) 2 1 s rfl (by decide +kernel)
    (by decide +kernel)

/-- C87 holds if the call has ended before it would have been cancelled: the cancellation is without effect. -/
theorem C87_ended_partial (c : MmCfg) (op : MmOp) (n : Nat) (s : Sim MmIn MmOut) (hn : n ≤ s.rest.length)
    (hx : result (mmStep c op { s with rest := s.rest.take n }) ≠ none) (k : M MmIn MmOut α) :
    (do cancelAfter n (mmStep c op); k) s = (do discard (mmStep c op); k) s := by
  have he : cancelAfter n (mmStep c op) s = (mmStep c op >>= fun _ => pure ()) s := cancel_ended n _ (Causal.mmStep c op) s hn hx
  show (cancelAfter n (mmStep c op) >>= fun _ => k) s = ((mmStep c op >>= fun _ => pure ()) >>= fun _ => k) s
  rw [bind_run, bind_run, he]

/-- C87 holds for a call given up while it is still waiting for its turn (another call has the bus): the clock goes on for `n` edges and
nothing else happens. -/
theorem C87_waiting_partial (c : MmCfg) (op : MmOp) (hop : OpOk c op) (hc : ∀ n, op ≠ .pause n) (n : Nat) (s : Sim MmIn MmOut)
    (hf : s.out.busy = true) (hn : n ≤ s.rest.length) :
    cancelAfter n (mmStep c op) s = (do edges n; nextStep) s := by
  unfold cancelAfter
  rw [if_pos hn, mmStep_busy c op hop hc { s with rest := s.rest.take n } hf]
  simp only [Sim.extend, List.take_append_drop, andThen_nil_ok]
  rw [show ({ s with rest := s.rest } : Sim MmIn MmOut) = s from rfl, List.length_take, Nat.min_eq_left hn]

/-- C87, of a write given up, what does hold of the slave's side: whenever the write is cancelled and however long the clock goes on,
the slave has seen that write request and no other, but possibly several times. -/
theorem C87_write_partial (c : MmCfg) (a v : Nat) (hop : OpOk c (.write a v)) (n m : Nat) (s : Sim MmIn MmOut)
    (hf : s.out.busy = false) (hw : s.out.write = .zero) (hres : ∀ i ∈ s.rest, Defined i.waitrequest) :
    ∃ j, (mmWrites c).taken ((do cancelAfter n (mmStep c (.write a v)); edges m) s).1 = List.replicate j (mmReq c a (natToBits c.dataW v)) := by
  have hp : ∀ r, (∀ i ∈ r, i ∈ s.rest) →
      Passes (mmWrites c) [mmReq c a (natToBits c.dataW v)] (mmStep c (.write a v) { s with rest := r }) (fun _ s' => IdleBus (mmWrites c) s') := by
    intro r hr
    have h1 := mmWriteBody_offers c a v hop.2.1 hop.2.2 { s with out := { s.out with busy := true }, rest := r } hw (fun _ i hi => hres i (hr i hi))
    have h2 := Passes.mono _ (Runs.passes _ (Offers.runs _ h1)) (post' := fun _ s' => IdleBus (mmWrites c) s')
      (fun _ s' h => ⟨by rw [h.2]; decide, by rw [h.1]; unfold mmDeselect; split <;> rfl⟩)
    have h3 : mmStep c (.write a v) { s with rest := r } =
        (mmWriteBody c a v { s with out := { s.out with busy := true }, rest := r }).andThen (fun _ => pure none) := by
      show (mmWrite c a v >>= fun _ => pure none) _ = _
      rw [bind_run, mmWrite_eq c a v hop.1 _ (by exact hf)]
    rw [h3]
    have := Passes.bind (mmWrites c) h2 (f := fun _ => (pure none : M MmIn MmOut (Option LogicArray))) (l' := [])
      (post' := fun _ s' => IdleBus (mmWrites c) s') (fun _ s' h => Passes.pure _ none s' _ h)
    exact this
  obtain ⟨k, hk, -⟩ := cancel_stopped' (mmWrites c) n (mmStep c (.write a v)) _ s
    (fun r s' h => (mmStep_blocked c (.write a v) hop (by simp) { s with rest := r } hf _ s' (Prod.ext rfl h)).2) hp
  have hrep : ∀ k j b, k ≤ 1 → (0 < j → [mmReq c a (natToBits c.dataW v)][k]? = some b) →
      ∃ i, [mmReq c a (natToBits c.dataW v)].take k ++ List.replicate j b = List.replicate i (mmReq c a (natToBits c.dataW v)) := by
    intro k j b hk hb
    have : [mmReq c a (natToBits c.dataW v)].take k = List.replicate k (mmReq c a (natToBits c.dataW v)) := by
      rcases k with _ | _ | k
      · rfl
      · rfl
      · omega
    rcases Nat.eq_zero_or_pos j with rfl | hj
    · exact ⟨k, by simp [this]⟩
    · have h1 := hb hj
      rcases k with _ | k
      · simp only [List.getElem?_cons_zero, Option.some.injEq] at h1
        exact ⟨j, by simp [h1]⟩
      · simp at h1
  rcases stopped_edges (mmWrites c) _ _ s k hk m with ⟨j, b, h1, h2⟩ | h
  · obtain ⟨i, hi⟩ := hrep k j b hk.le h1
    exact ⟨i, h2.trans hi⟩
  · obtain ⟨i, hi⟩ := hrep k 0 (mmReq c a (natToBits c.dataW v)) hk.le (by simp)
    exact ⟨i, h.trans (by simpa using hi)⟩

/-- a write given up while waitrequest is high, and then accepted three times -/
example :
    let c : MmCfg := { addrW := 8, dataW := 8 }
    let s : Sim MmIn MmOut := ⟨.mid, ⟨[], [], [], .zero, .zero, .zero, false⟩, ⟨.zero, .zero, []⟩, ⟨.zero, .zero, []⟩,
      [⟨.one, .zero, []⟩, ⟨.one, .zero, []⟩, ⟨.one, .zero, []⟩] ++ List.replicate 4 ⟨.zero, .zero, []⟩⟩
    (mmWrites c).taken ((do cancelAfter 3 (mmStep c (.write 5 6)); edges 4) s).1 = List.replicate 3 (mmReq c 5 (natToBits 8 6)) := by
  decide +kernel

/-- C87 never holds for an OPB master either, for a read given up … -/
theorem C87_opb_read_never (c : OpbCfg) (a : Nat) (sync : Bool) (n m : Nat) (s : Sim OpbIn OpbOut) (hf : s.out.busy = false) (hn : n ≤ s.rest.length)
    (hx : result (opbRead c a sync { s with rest := s.rest.take n }) = none) :
    (∀ a' sync', result ((do cancelAfter n (opbRead c a sync); edges m; opbRead c a' sync') s) = none) ∧
    (∀ a' v' sync', result ((do cancelAfter n (opbRead c a sync); edges m; opbWrite c a' v' sync') s) = none) := by
  have hl := opbRead_lock c a sync { s with rest := s.rest.take n } (isOk_of_none _ hx)
  have hw := opbRead_waits c a sync { s with rest := s.rest.take n } hf
  constructor <;> intros <;> refine cancel_then n m _ _ s hn hw hx (fun s' h => ?_)
  · unfold opbRead; rw [opbAcquire_busy _ s' (by rw [h]; exact hl)]; rfl
  · unfold opbWrite; rw [opbAcquire_busy _ s' (by rw [h]; exact hl)]; rfl

/-- … and for a write given up. -/
theorem C87_opb_write_never (c : OpbCfg) (a v : Nat) (sync : Bool) (n m : Nat) (s : Sim OpbIn OpbOut) (hf : s.out.busy = false) (hn : n ≤ s.rest.length)
    (hx : result (opbWrite c a v sync { s with rest := s.rest.take n }) = none) :
    (∀ a' sync', result ((do cancelAfter n (opbWrite c a v sync); edges m; opbRead c a' sync') s) = none) ∧
    (∀ a' v' sync', result ((do cancelAfter n (opbWrite c a v sync); edges m; opbWrite c a' v' sync') s) = none) := by
  have hl := opbWrite_lock c a v sync { s with rest := s.rest.take n } (isOk_of_none _ hx)
  have hw := opbWrite_waits c a v sync { s with rest := s.rest.take n } hf
  constructor <;> intros <;> refine cancel_then n m _ _ s hn hw hx (fun s' h => ?_)
  · unfold opbRead; rw [opbAcquire_busy _ s' (by rw [h]; exact hl)]; rfl
  · unfold opbWrite; rw [opbAcquire_busy _ s' (by rw [h]; exact hl)]; rfl

/-- a read that has not ended two edges after its start -/
example : result (opbRead { addrW := 8, dataW := 8 } 3 true
    (⟨.mid, ⟨[], .zero, .zero, [], [], [], false⟩, {}, {}, [{}, {}]⟩ : Sim OpbIn OpbOut)) = none := by decide +kernel

/-! ### C88: an AXI4-Lite read given up -/

/-- a slave whose words repeat the low byte of the address -/
def aliasWord (p : AddrReq) : LogicArray := natToBits 32 (bitsToNat p.addr * 0x01010101)

/-- C88 is false of the code: a read is given up after its address has been accepted, and the read of another address made later gets
the word of the first. -/
theorem C88_violated : ¬ ∀ (addrW j : Nat), j ≤ 7 → ∀ (a a' : Nat), a < 2 ^ addrW → a' < 2 ^ addrW → ∀ (sync : Bool) (n m : Nat)
    (s : Sim AxIn AddrOut), ReadReady sync s → (∀ i ∈ s.cur :: s.rest, GoodBeat (2 ^ j) i) → ∀ answer,
    let c := AxCfg.lite addrW (2 ^ j)
    let r := (do cancelAfter n (liteRead c a sync); edges m; liteRead c a' sync) s
    InOrder c answer r.1 → result r ≠ none → result r = some (.ok (liteWord c answer a')) := by
  intro h
  have := h 16 2 (by decide) 0x10 0x20 (by decide) (by decide) true 3 1
    (startR [{}, {}, readyIn, {}, {}, {}, readyIn, rIn 0x10101010 0 .zero, {}]) (startR_ready _ _) ?_ aliasWord ?_ ?_
  · revert this
    decide +kernel
  · intro i hi hf
    have hall : ∀ i ∈ [({} : AxIn), {}, readyIn, {}, {}, {}, readyIn, rIn 0x10101010 0 .zero, {}], rFire i = true →
        i.rdata.length = 32 ∧ isResolvable i.rresp = true ∧ bitsToNat i.rresp < 4 := by decide +kernel
    obtain ⟨g1, g2, g3⟩ := hall i hi hf
    exact ⟨g1, _, g2, rfl, g3⟩
  · exact inOrder_of_check _ _ _ (by decide +kernel)
  · decide +kernel

/-- C88, what does hold: whatever happened before (`t0`), if no address accepted is still unanswered when a read starts, it returns
the word of its own address. -/
theorem C88_partial (addrW j : Nat) (hj : j ≤ 7) (a : Nat) (ha : a < 2 ^ addrW) (sync : Bool)
    (s : Sim AxIn AddrOut) (hs : ReadReady sync s) (hg : ∀ i ∈ s.cur :: s.rest, GoodBeat (2 ^ j) i) (answer : AddrReq → LogicArray)
    (t0 : List (AddrOut × AxIn)) :
    let c := AxCfg.lite addrW (2 ^ j)
    let r := liteRead c a sync s
    (rBeats t0).length = ((arStream c).taken t0).length → InOrder c answer (t0 ++ r.1) → result r ≠ none →
      result r = some (.ok (liteWord c answer a)) := by
  intro c r hd ho hne
  obtain ⟨⟨acc, h1, h2⟩, h3⟩ := C64_read addrW j hj a ha sync s hs hg
  rcases h3 with ⟨h3, -⟩ | ⟨t', q, h3, h4, h5, h6⟩
  · exact absurd h3 hne
  · have hacc := h2 hne
    subst hacc
    have htk := Stream.Once.taken_eq h1
    obtain ⟨pre, x, e1, e2, e3⟩ := after_split _ _ _ _ h3
    have er : r.1 = pre ++ x :: (t' ++ [q]) := e1
    have hquiet := inOrder_quiet c answer t0 x hd pre e2 (fun u p hu hf => ho u p (hu.trans ⟨t' ++ [q], by rw [er]; simp⟩) hf)
    obtain ⟨p, g1, g2, g3⟩ := ho (t0 ++ (pre ++ x :: t')) q ⟨[], by rw [er]; simp⟩ h5
    have hb : (rBeats (t0 ++ (pre ++ x :: t'))).length = (rBeats t0).length := by
      rw [rBeats_append, rBeats_none (pre ++ x :: t')]
      · simp
      · intro y hy
        rcases List.mem_append.mp hy with hy | hy
        · exact hquiet y (by simp [hy])
        · rcases List.mem_cons.mp hy with rfl | hy
          · exact hquiet y (by simp)
          · exact h4 y hy
    have hx : (arStream c).taken (pre ++ x :: (t' ++ [q])) = [⟨natToBits addrW a, none⟩] := by rw [← e1]; exact htk
    have hx' : (arStream c).taken (pre ++ x :: t') = [⟨natToBits addrW a, none⟩] := by
      have e : pre ++ x :: (t' ++ [q]) = (pre ++ x :: t') ++ [q] := by simp
      rw [e, taken_append] at hx
      have hne : (arStream c).taken (pre ++ x :: t') ≠ [] := by
        have e3' : (arStream c).xfer x = true := e3
        simp [Stream.taken, e3']
      rcases hq : (arStream c).taken (pre ++ x :: t') with _ | ⟨y, ys⟩
      · exact absurd hq hne
      · rw [hq] at hx
        simp only [List.cons_append, List.cons.injEq, List.append_eq_nil_iff] at hx
        rw [hx.1, hx.2.1]
    rw [taken_append, hx', hb, hd] at g1
    simp only [List.getElem?_append_right (Nat.le_refl _), Nat.sub_self, List.getElem?_cons_zero, Option.some.injEq] at g1
    show result (liteRead (AxCfg.lite addrW (2 ^ j)) a sync s) = _
    rw [h6, if_pos g3.2.1, g2, ← g1]
    rfl

/-- a read given up and answered during the pause before the next one, which then gets its own word -/
example :
    let c := AxCfg.lite 16 4
    let s := startR [{}, {}, readyIn, {}, rIn 0x10101010 0 .zero, {}, {}, readyIn, rIn 0x20202020 0 .zero, {}]
    let t0 := ((do cancelAfter 3 (liteRead c 0x10 true); edges 2) s).1
    let r := (do cancelAfter 3 (liteRead c 0x10 true); edges 2; liteRead c 0x20 true) s
    (rBeats t0).length = ((arStream c).taken t0).length ∧ InOrder c aliasWord r.1 ∧ result r = some (.ok (liteWord c aliasWord 0x20)) := by
  refine ⟨by decide +kernel, inOrder_of_check _ _ _ (by decide +kernel), by decide +kernel⟩

end CocotbBus
