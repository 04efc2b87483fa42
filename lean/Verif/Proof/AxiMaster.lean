import Verif.Proof.AxiRead
import Verif.Proof.StreamProg
import Verif.Proof.AvalonMM
import Verif.Spec.AxiMaster

/-! # AXI4 master: the coroutines -/

namespace CocotbBus
open Coro Spec
variable {I O P α β : Type}

/-! ### Address channels -/

theorem setAddr_bind (c : AxCfg) (a len size : Nat) (burst : AxiBurst) (hf : AddrFits c a len size) (hsz : 0 < size) (k : Unit → M AxIn AddrOut β)
    (s : Sim AxIn AddrOut) (hs : s.phase ≠ .ro) :
    ∃ o : AddrOut, (setAddr c a len size burst >>= k) s = k () { s with out := o } ∧ o.valid = .one ∧
      (⟨o.addr, if c.full then some (o.burst, o.len, o.size) else none⟩ : AddrReq) = addrReq c a len size burst := by
  obtain ⟨ha, hfull⟩ := hf
  unfold setAddr
  rw [bind_assoc_run, bind_writeInt _ _ _ ha _ _ hs, bind_assoc_run, bind_write _ _ _ (by exact hs)]
  cases hc : c.full with
  | false =>
    simp only [Coro.when, Bool.false_eq_true, if_false, bind_pure_run]
    exact ⟨_, rfl, rfl, by simp [addrReq, hc]⟩
  | true =>
    obtain ⟨h1, h2, h3⟩ := hfull hc
    have hb : burst.code < 2 ^ c.burstW := by
      have : 2 ^ 2 ≤ 2 ^ c.burstW := Nat.pow_le_pow_right (by decide) h1
      cases burst <;> simp only [AxiBurst.code] <;> omega
    have hl : bitLength size - 1 = Nat.log2 size := by
      unfold bitLength
      rw [if_neg (by omega)]
      omega
    simp only [Coro.when, if_true]
    rw [hl, bind_assoc_run, bind_writeInt _ _ _ hb _ _ (by exact hs), bind_assoc_run, bind_writeInt _ _ _ h2 _ _ (by exact hs),
      bind_writeInt _ _ _ h3 _ _ (by exact hs)]
    exact ⟨_, rfl, rfl, by cases burst <;> simp [addrReq, hc, AxiBurst.code, burstCode]⟩

theorem addrPhase_offers (V : Stream AxIn AddrOut AddrReq) (ready : AxIn → Logic) (hv : ∀ o, V.valid o = (o.valid == .one)) (hr : ∀ i, V.ready i = (ready i == .one))
    (c : AxCfg) (hp : ∀ o, V.payload o = ⟨o.addr, if c.full then some (o.burst, o.len, o.size) else none⟩)
    (a len size : Nat) (burst : AxiBurst) (hf : AddrFits c a len size) (hsz : 0 < size) (s : Sim AxIn AddrOut) (hs : s.phase ≠ .ro) :
    Offers V (addrReq c a len size burst) 0 ((setAddr c a len size burst >>= fun _ => addrHandshake ready) s)
      (fun _ s' => s'.phase = .edge ∧ s'.out.valid = .zero) := by
  obtain ⟨o, h1, h2, h3⟩ := setAddr_bind c a len size burst hf hsz (fun _ => addrHandshake ready) s hs
  rw [h1]
  unfold addrHandshake
  have := offers_wait V true (fun i => ready i == .one) (fun i => by rw [hr]; rfl) (addrReq c a len size burst) { s with out := o } hs
    (by rw [hv]; simp [h2]) (by rw [hp]; exact h3) (fun _ s' => s'.phase = .edge) (fun s' _ h => h)
  simp only [Coro.when, if_true] at this
  rw [← bind_assoc_run]
  refine Offers.bind_silent this _ (fun _ _ => ()) (fun _ s' => { s' with out := { s'.out with valid := .zero } }) ?_ _ ?_
  · intro _ s' h
    exact write_ok _ _ (by rw [h]; decide)
  · intro _ s' h
    exact ⟨h, rfl⟩

theorem sendWriteAddress_offers (c : AxCfg) (a len size delay : Nat) (burst : AxiBurst) (sync : Bool) (hf : AddrFits c a len size) (hsz : 0 < size)
    (s : Sim AxIn AddrOut) (hs : sync = true ∨ s.phase ≠ .ro) (h0 : s.out.valid = .zero) :
    Offers (awStream c) (addrReq c a len size burst) (delay + if sync then 1 else 0) (sendWriteAddress c a len burst size delay sync s)
      (fun _ s' => s'.phase = .edge ∧ s'.out.valid = .zero) := by
  have main : ∀ t : Sim AxIn AddrOut, t.phase ≠ .ro → t.out = s.out →
      Offers (awStream c) (addrReq c a len size burst) (delay + 0)
        ((edges delay >>= fun _ => setAddr c a len size burst >>= fun _ => addrHandshake (·.awready)) t)
        (fun _ s' => s'.phase = .edge ∧ s'.out.valid = .zero) := by
    intro t ht hto
    refine offers_edges (awStream c) delay (by simp [awStream, hto, h0]) ht (fun u hu1 hu2 => ?_)
    exact addrPhase_offers (awStream c) (·.awready) (fun _ => rfl) (fun _ => rfl) c (fun _ => rfl) a len size burst hf hsz u hu2
  unfold sendWriteAddress
  cases sync with
  | false =>
    simp only [Coro.when, Bool.false_eq_true, if_false, pure_bind]
    exact main s (by simpa using hs) rfl
  | true =>
    simp only [Coro.when, if_true]
    refine offers_edge (awStream c) (n := delay + 0) (by simp [awStream, h0]) (fun i r _ => ?_)
    exact main _ (by simp) rfl

theorem sendReadAddress_offers (c : AxCfg) (a len size : Nat) (burst : AxiBurst) (sync : Bool) (hf : AddrFits c a len size) (hsz : 0 < size)
    (s : Sim AxIn AddrOut) (hs : sync = true ∨ s.phase ≠ .ro) (h0 : s.out.valid = .zero) :
    Offers (arStream c) (addrReq c a len size burst) (if sync then 1 else 0) (sendReadAddress c a len burst size sync s)
      (fun _ s' => s'.phase = .edge ∧ s'.out.valid = .zero) := by
  have main : ∀ t : Sim AxIn AddrOut, t.phase ≠ .ro → 
      Offers (arStream c) (addrReq c a len size burst) 0
        ((setAddr c a len size burst >>= fun _ => addrHandshake (·.arready)) t)
        (fun _ s' => s'.phase = .edge ∧ s'.out.valid = .zero) := by
    intro t ht
    exact addrPhase_offers (arStream c) (·.arready) (fun _ => rfl) (fun _ => rfl) c (fun _ => rfl) a len size burst hf hsz t ht
  unfold sendReadAddress
  cases sync with
  | false =>
    simp only [Coro.when, Bool.false_eq_true, if_false, pure_bind]
    exact main s (by simpa using hs)
  | true =>
    simp only [Coro.when, if_true]
    refine offers_edge (arStream c) (n := 0) (by simp [arStream, h0]) (fun i r _ => ?_)
    exact main _ (by simp)

theorem setAddr_good (c : AxCfg) (a len size : Nat) (burst : AxiBurst) : Good (setAddr c a len size burst) :=
  Good.bind (Good.writeInt _ _ _) fun _ => Good.bind (Good.write _) fun _ => Good.when _ (Good.bind (Good.writeInt _ _ _) fun _ =>
    Good.bind (Good.writeInt _ _ _) fun _ => Good.writeInt _ _ _)

theorem addrHandshake_good (ready : AxIn → Logic) : Good (addrHandshake ready) :=
  Good.bind (Good.waitRO _) fun _ => Good.bind Good.awaitEdge fun _ => Good.write _

theorem sendWriteAddress_good (c : AxCfg) (a len size delay : Nat) (burst : AxiBurst) (sync : Bool) : Good (sendWriteAddress c a len burst size delay sync) :=
  Good.bind (Good.when _ Good.awaitEdge) fun _ => Good.bind (Good.edges _) fun _ => Good.bind (setAddr_good _ _ _ _ _) fun _ => addrHandshake_good _

theorem sendReadAddress_good (c : AxCfg) (a len size : Nat) (burst : AxiBurst) (sync : Bool) : Good (sendReadAddress c a len burst size sync) :=
  Good.bind (Good.when _ Good.awaitEdge) fun _ => Good.bind (setAddr_good _ _ _ _ _) fun _ => addrHandshake_good _

/-! ### Write data channel -/

/-- body of the loop of `wAccept` -/
def wBody : Unit → M AxIn WOut (Unit ⊕ Unit) := fun _ => do
  awaitEdge
  let i ← inp
  pure (if i.wready = .one then .inr () else .inl ())

theorem wBody_consumes : Consumes wBody := by
  intro b s t b' s' h
  unfold wBody at h
  exact consumes_of_edge s _ (Good.bind Good.inp fun _ => Good.pure _) t b' s' h

theorem wBody_good (b : Unit) : Good (wBody b) := Good.bind Good.awaitEdge fun _ => Good.bind Good.inp fun _ => Good.pure _

theorem wAccept_good : Good wAccept := Good.loop _ wBody_consumes wBody_good ()

/-- one data beat being offered -/
theorem wAccept_offers (V : Stream AxIn WOut P) (hr : ∀ i, V.ready i = (i.wready == .one)) (p : P) (rest : List AxIn) : ∀ (ph : Phase) (out : WOut) (prev cur : AxIn),
    V.valid out = true → V.payload out = p →
    Offers V p 0 (wAccept (⟨ph, out, prev, cur, rest⟩ : Sim AxIn WOut)) (fun _ s' => s'.phase = .edge ∧ s'.out = out) := by
  induction rest with
  | nil =>
    intro ph out prev cur hv hp
    refine ⟨[], [], by simp, by simp, .inr ⟨rfl, .inl ⟨⟨ph, out, prev, cur, []⟩, ?_, hv, hp⟩⟩⟩
    show loop wBody () _ = _
    rw [loop_unfold _ wBody_consumes]
    unfold wBody
    rw [bind_assoc_run, bind_awaitEdge_nil _ _ rfl]
    rfl
  | cons j r ih =>
    intro ph out prev cur hv hp
    have hstep : wAccept (⟨ph, out, prev, cur, j :: r⟩ : Sim AxIn WOut) =
        ((out, cur) :: ((if cur.wready = .one then pure () else wAccept : M AxIn WOut Unit) ⟨.edge, out, cur, j, r⟩).1,
          ((if cur.wready = .one then pure () else wAccept : M AxIn WOut Unit) ⟨.edge, out, cur, j, r⟩).2) := by
      show loop wBody () _ = _
      rw [loop_unfold _ wBody_consumes]
      unfold wBody
      rw [bind_assoc_run, bind_awaitEdge_cons _ _ j r rfl]
      rw [bind_assoc_run, bind_inp_edge _ _ rfl]
      simp only
      by_cases h : cur.wready = .one
      · simp only [h, if_true]; rfl
      · simp only [h, if_false, bind_pure_run]; rfl
    rw [hstep]
    by_cases h : cur.wready = .one
    · simp only [h, if_true]
      exact ⟨[], [], by simp, by simp, .inr ⟨rfl, .inr ⟨(out, cur), (), ⟨.edge, out, cur, j, r⟩, rfl, hv, hp, by simp [hr, h], rfl, rfl⟩⟩⟩
    · simp only [h, if_false]
      obtain ⟨idle, held, h1, h2, h3⟩ := ih .edge out cur j hv hp
      rcases h3 with ⟨s', a, b, d⟩ | ⟨hl, h3⟩
      · have : idle = [] := List.length_eq_zero_iff.1 (by omega)
        subst this
        refine ⟨[], [(out, cur)], by simp, ?_, .inr ⟨rfl, .inl ⟨s', by rw [a]; rfl, ?_⟩⟩⟩
        · intro q hq; rw [List.mem_singleton] at hq; subst hq; exact ⟨hv, hp, by simp [hr, h]⟩
        · -- the values are kept
          have hk := (Keeps.loop (P := fun o => o = out) wBody (fun _ => Keeps.bind Keeps.awaitEdge fun _ => Keeps.bind Keeps.inp fun _ => Keeps.pure _) ()
            (⟨.edge, out, cur, j, r⟩ : Sim AxIn WOut) rfl).2
          have e : loop wBody () (⟨.edge, out, cur, j, r⟩ : Sim AxIn WOut) = ([], .blocked s') := a
          rw [e] at hk
          simp only [End.sim] at hk
          rw [hk]; exact ⟨hv, hp⟩
      · have : idle = [] := List.length_eq_zero_iff.1 hl
        subst this
        refine ⟨[], (out, cur) :: held, by simp, ?_, .inr ⟨rfl, ?_⟩⟩
        · intro q hq
          rcases List.mem_cons.1 hq with rfl | hq
          · exact ⟨hv, hp, by simp [hr, h]⟩
          · exact h2 q hq
        · rcases h3 with ⟨s', a, b⟩ | ⟨q, x, s', a, b⟩
          · exact .inl ⟨s', by rw [a]; rfl, b⟩
          · exact .inr ⟨q, x, s', by rw [a]; rfl, b⟩

/-- one turn of the loop over the beats -/
def beatM (c : AxCfg) (delay : Nat) (last : Bool) (word strobe : Nat) : M AxIn WOut Unit := do
  edges delay
  write (fun o => { o with valid := .one })
  writeInt (8 * c.dataBytes) word (fun v o => { o with data := v })
  writeInt c.dataBytes strobe (fun v o => { o with strb := v })
  when c.hasWlast (write (fun o => { o with last := if last then .one else .zero }))
  wAccept
  when last (write (fun o => { o with valid := .zero }))

theorem sendBeats_cons (c : AxCfg) (delay word strobe : Nat) (r : List (Nat × Nat)) :
    sendBeats c delay ((word, strobe) :: r) = (beatM c delay r.isEmpty word strobe >>= fun _ => sendBeats c delay r) := by
  unfold beatM
  rw [sendBeats]
  simp only [bind_assoc]

theorem beatM_good (c : AxCfg) (delay : Nat) (last : Bool) (word strobe : Nat) : Good (beatM c delay last word strobe) :=
  Good.bind (Good.edges _) fun _ => Good.bind (Good.write _) fun _ => Good.bind (Good.writeInt _ _ _) fun _ => Good.bind (Good.writeInt _ _ _) fun _ =>
    Good.bind (Good.when _ (Good.write _)) fun _ => Good.bind wAccept_good fun _ => Good.when _ (Good.write _)

theorem sendBeats_good (c : AxCfg) (delay : Nat) (l : List (Nat × Nat)) : Good (sendBeats c delay l) := by
  induction l with
  | nil => exact Good.pure _
  | cons q r ih =>
    obtain ⟨w, st⟩ := q
    rw [sendBeats_cons]
    exact Good.bind (beatM_good _ _ _ _ _) fun _ => ih

theorem sendWriteData_good (c : AxCfg) (a : Nat) (data : List Nat) (burst : AxiBurst) (size delay : Nat) (be : List (Option Nat)) (sync : Bool) :
    Good (sendWriteData c a data burst size delay be sync) :=
  Good.bind (Good.ofExcept _) fun _ => Good.bind (Good.when _ Good.awaitEdge) fun _ => sendBeats_good _ _ _

theorem Offers.mono {V : Stream I O P} {p : P} {n : Nat} {r : Res I O α} {post post' : α → Sim I O → Prop} (h : Offers V p n r post) (hp : ∀ a s, post a s → post' a s) :
    Offers V p n r post' := by
  obtain ⟨idle, held, h1, h2, h3⟩ := h
  refine ⟨idle, held, h1, h2, ?_⟩
  rcases h3 with h3 | ⟨h3, h4 | ⟨q, a, s', h4, h5, h6, h7, h8⟩⟩
  · exact .inl h3
  · exact .inr ⟨h3, .inl h4⟩
  · exact .inr ⟨h3, .inr ⟨q, a, s', h4, h5, h6, h7, hp _ _ h8⟩⟩

/-- a beat without a gap before it -/
theorem beatM_offers' (c : AxCfg) (last : Bool) (word strobe : Nat) (hw : word < 2 ^ (8 * c.dataBytes)) (hst : strobe < 2 ^ c.dataBytes)
    (s : Sim AxIn WOut) (hs : s.phase ≠ .ro) :
    Offers (wStream c) ⟨natToBits (8 * c.dataBytes) word, natToBits c.dataBytes strobe, if c.hasWlast then some (if last then .one else .zero) else none⟩ 0
      (beatM c 0 last word strobe s) (fun _ s' => s'.phase = .edge ∧ (last = true → s'.out.valid = .zero) ∧ (last = false → s'.out.valid = .one ∧ (wStream c).payload s'.out = ⟨natToBits (8 * c.dataBytes) word, natToBits c.dataBytes strobe, if c.hasWlast then some (if last then .one else .zero) else none⟩)) := by
  unfold beatM
  rw [edges, bind_pure_run, bind_write _ _ _ hs, bind_writeInt _ _ _ hw _ _ (by exact hs), bind_writeInt _ _ _ hst _ _ (by exact hs)]
  have key : ∀ o : WOut, o.valid = .one → (wStream c).payload o = ⟨natToBits (8 * c.dataBytes) word, natToBits c.dataBytes strobe, if c.hasWlast then some (if last then .one else .zero) else none⟩ →
      Offers (wStream c) ⟨natToBits (8 * c.dataBytes) word, natToBits c.dataBytes strobe, if c.hasWlast then some (if last then .one else .zero) else none⟩ 0
      ((wAccept >>= fun _ => when last (write (fun o => { o with valid := .zero }))) ⟨s.phase, o, s.prev, s.cur, s.rest⟩)
        (fun _ s' => s'.phase = .edge ∧ (last = true → s'.out.valid = .zero) ∧ (last = false → s'.out.valid = .one ∧ (wStream c).payload s'.out = ⟨natToBits (8 * c.dataBytes) word, natToBits c.dataBytes strobe, if c.hasWlast then some (if last then .one else .zero) else none⟩)) := by
    intro o ho hpo
    have := wAccept_offers (wStream c) (fun _ => rfl) _ s.rest s.phase o s.prev s.cur (by simp [wStream, ho]) hpo
    refine Offers.bind_silent this _ (fun _ _ => ()) (fun _ s' => if last then { s' with out := { s'.out with valid := .zero } } else s') ?_ _ ?_
    · rintro _ s' ⟨h, _⟩
      cases last with
      | true => simp only [Coro.when, if_true]; exact write_ok _ _ (by rw [h]; decide)
      | false => rfl
    · rintro _ s' ⟨h, h'⟩
      cases last with
      | true => exact ⟨h, fun _ => rfl, fun h => by cases h⟩
      | false => exact ⟨h, (fun h => by cases h), fun _ => by simp only [Bool.false_eq_true, if_false]; rw [h']; exact ⟨ho, hpo⟩⟩
  cases hl : c.hasWlast with
  | false =>
    simp only [Coro.when, Bool.false_eq_true, if_false, pure_bind]
    have := key { s.out with valid := .one, data := natToBits (8 * c.dataBytes) word, strb := natToBits c.dataBytes strobe } rfl (by simp [wStream, hl])
    rw [hl] at this
    simpa [Coro.when] using this
  | true =>
    simp only [Coro.when, if_true]
    rw [bind_write _ _ _ (by exact hs)]
    have := key { s.out with valid := .one, data := natToBits (8 * c.dataBytes) word, strb := natToBits c.dataBytes strobe, last := if last then .one else .zero } rfl
      (by simp [wStream, hl])
    rw [hl] at this
    simpa [Coro.when] using this

theorem beatM_offers (c : AxCfg) (last : Bool) (word strobe : Nat) (hw : word < 2 ^ (8 * c.dataBytes)) (hst : strobe < 2 ^ c.dataBytes)
    (s : Sim AxIn WOut) (hs : s.phase ≠ .ro) :
    Offers (wStream c) ⟨natToBits (8 * c.dataBytes) word, natToBits c.dataBytes strobe, if c.hasWlast then some (if last then .one else .zero) else none⟩ 0
      (beatM c 0 last word strobe s) (fun _ s' => s'.phase = .edge ∧ (last = true → s'.out.valid = .zero)) :=
  Offers.mono (beatM_offers' c last word strobe hw hst s hs) (fun _ _ h => ⟨h.1, h.2.1⟩)

theorem sendBeats_runs (c : AxCfg) (l : List (Nat × Nat)) (hl : ∀ x ∈ l, x.1 < 2 ^ (8 * c.dataBytes) ∧ x.2 < 2 ^ c.dataBytes) :
    ∀ s : Sim AxIn WOut, s.phase ≠ .ro → (l = [] → s.out.valid = .zero) →
    Runs (wStream c) (wReqs c l) (List.replicate l.length 0) (sendBeats c 0 l s) (fun _ s' => s'.phase ≠ .ro ∧ s'.out.valid = .zero) := by
  induction l with
  | nil => intro s hs hv; exact Runs.nil _ _ _ _ ⟨hs, hv rfl⟩
  | cons q r ih =>
    intro s hs _
    obtain ⟨w, st⟩ := q
    obtain ⟨h1, h2⟩ := hl (w, st) List.mem_cons_self
    rw [sendBeats_cons]
    have hb := (beatM_offers c r.isEmpty w st h1 h2 s hs).runs
    have he : (if r.isEmpty = true then Logic.one else .zero) = if r = [] then .one else .zero := by cases r <;> rfl
    rw [he] at hb
    have := Runs.bind (wStream c) rfl hb (fun _ s' hp => ih (fun x hx => hl x (List.mem_cons_of_mem _ hx)) s' (by rw [hp.1]; decide)
      (fun hr => hp.2 (by rw [hr]; rfl)))
    exact this

theorem beatM_delay (c : AxCfg) (delay : Nat) (last : Bool) (w st : Nat) : beatM c delay last w st = (edges delay >>= fun _ => beatM c 0 last w st) := by
  unfold beatM
  simp only [edges, pure_bind]

/-- the first beat -/
theorem firstBeat_offers (c : AxCfg) (delay : Nat) (sync last : Bool) (word strobe : Nat) (hw : word < 2 ^ (8 * c.dataBytes)) (hst : strobe < 2 ^ c.dataBytes)
    (s : Sim AxIn WOut) (hs : sync = true ∨ s.phase ≠ .ro) (h0 : s.out.valid = .zero) :
    Offers (wStream c) ⟨natToBits (8 * c.dataBytes) word, natToBits c.dataBytes strobe, if c.hasWlast then some (if last then .one else .zero) else none⟩
      (delay + if sync then 1 else 0)
      ((when sync awaitEdge >>= fun _ => beatM c delay last word strobe) s) (fun _ s' => s'.phase = .edge ∧ (last = true → s'.out.valid = .zero)) := by
  have main : ∀ t : Sim AxIn WOut, t.phase ≠ .ro → t.out = s.out →
      Offers (wStream c) ⟨natToBits (8 * c.dataBytes) word, natToBits c.dataBytes strobe, if c.hasWlast then some (if last then .one else .zero) else none⟩
      (delay + 0) (beatM c delay last word strobe t) (fun _ s' => s'.phase = .edge ∧ (last = true → s'.out.valid = .zero)) := by
    intro t ht hto
    rw [beatM_delay]
    refine offers_edges (wStream c) delay (by simp [wStream, hto, h0]) ht (fun u _ hu2 => ?_)
    exact beatM_offers c last word strobe hw hst u hu2
  cases sync with
  | false =>
    simp only [Coro.when, Bool.false_eq_true, if_false, pure_bind]
    exact main s (by simpa using hs) rfl
  | true =>
    simp only [Coro.when, if_true]
    refine offers_edge (wStream c) (n := delay + 0) (by simp [wStream, h0]) (fun i r _ => ?_)
    exact main _ (by simp) rfl

theorem sendBeats_first (c : AxCfg) (delay : Nat) (sync : Bool) (l : List (Nat × Nat)) (hd : delay = 0 ∨ l.length = 1) (hne : l ≠ [])
    (hl : ∀ x ∈ l, x.1 < 2 ^ (8 * c.dataBytes) ∧ x.2 < 2 ^ c.dataBytes)
    (s : Sim AxIn WOut) (hs : sync = true ∨ s.phase ≠ .ro) (h0 : s.out.valid = .zero) :
    Runs (wStream c) (wReqs c l) ((delay + if sync then 1 else 0) :: List.replicate (l.length - 1) 0)
      ((when sync awaitEdge >>= fun _ => sendBeats c delay l) s) (fun _ s' => s'.phase ≠ .ro ∧ s'.out.valid = .zero) := by
  match l, hne with
  | (w, st) :: r, _ =>
    obtain ⟨h1, h2⟩ := hl (w, st) List.mem_cons_self
    rw [sendBeats_cons, ← bind_assoc_run]
    have hb := (firstBeat_offers c delay sync r.isEmpty w st h1 h2 s hs h0).runs
    have he : (if r.isEmpty = true then Logic.one else .zero) = if r = [] then .one else .zero := by cases r <;> rfl
    rw [he] at hb
    have hf : ∀ (x : Unit) (s' : Sim AxIn WOut), (s'.phase = .edge ∧ (r.isEmpty = true → s'.out.valid = .zero)) →
        Runs (wStream c) (wReqs c r) (List.replicate r.length 0) (sendBeats c delay r s') (fun _ s' => s'.phase ≠ .ro ∧ s'.out.valid = .zero) := by
      intro _ s' hp
      have hr := sendBeats_runs c r (fun x hx => hl x (List.mem_cons_of_mem _ hx)) s' (by rw [hp.1]; decide) (fun hr => hp.2 (by rw [hr]; rfl))
      rcases hd with hd | hd
      · subst hd; exact hr
      · have : r = [] := by simpa using hd
        subst this
        exact hr
    exact Runs.bind (wStream c) rfl hb hf

theorem sendWriteData_eq (c : AxCfg) (a : Nat) (data : List Nat) (burst : AxiBurst) (size delay : Nat) (be : List (Option Nat)) (sync : Bool)
    (beats : List (Nat × Nat)) (h : axiWriteBeats c.dataBytes size a burst data be = .ok beats) :
    sendWriteData c a data burst size delay be sync = (when sync awaitEdge >>= fun _ => sendBeats c delay beats) := by
  unfold sendWriteData
  rw [h]
  rfl

/-! ### Two tasks -/

theorem joinTrace_left (t : List (O × I)) (lo : O) (lp : P) : ∀ u : List (P × I),
    (joinTrace t lo u lp).map (fun r => (r.1.1, r.2)) = t ++ (u.drop t.length).map (fun q => (lo, q.2)) := by
  induction t with
  | nil => intro u; simp [joinTrace]
  | cons r t ih =>
    intro u
    obtain ⟨o, i⟩ := r
    rw [joinTrace, List.map_cons, ih]
    simp

theorem joinTrace_right (t : List (O × I)) (lo : O) (lp : P) : ∀ u : List (P × I),
    (∀ (n : Nat) (q : O × I) (r : P × I), t[n]? = some q → u[n]? = some r → q.2 = r.2) →
    (joinTrace t lo u lp).map (fun r => (r.1.2, r.2)) = u ++ (t.drop u.length).map (fun q => (lp, q.2)) := by
  induction t with
  | nil => intro u _; simp [joinTrace, Function.comp_def]
  | cons r t ih =>
    intro u h
    obtain ⟨o, i⟩ := r
    cases u with
    | nil => rw [joinTrace, List.map_cons, ih [].tail (by intro n q r _ h; simp at h)]; simp
    | cons q u =>
      obtain ⟨p, j⟩ := q
      have hij : i = j := h 0 (o, i) (p, j) rfl rfl
      subst hij
      rw [joinTrace, List.map_cons, ih _ (fun n q r hq hr => h (n + 1) q r (by simpa using hq) (by simpa using hr))]
      simp

theorem joinTrace_inp (t : List (O × I)) (lo : O) (u : List (P × I)) (lp : P) :
    (joinTrace t lo u lp).map Prod.snd = t.map Prod.snd ++ (u.drop t.length).map Prod.snd := by
  have := congrArg (List.map Prod.snd) (joinTrace_left t lo lp u)
  simpa [List.map_map, Function.comp_def] using this

/-- inputs of two good tasks on the same schedule agree -/
theorem good_agree {x : M I O α} {y : M I P β} (hx : Good x) (hy : Good y) (s : Sim I O) (s' : Sim I P) (h : s.cur = s'.cur ∧ s.rest = s'.rest) :
    ∀ (n : Nat) (q : O × I) (r : P × I), (x s).1[n]? = some q → (y s').1[n]? = some r → q.2 = r.2 := by
  intro n q r hq hr
  have h1 := (hx s).1
  have h2 := (hy s').1
  rw [h.1, h.2] at h1
  have e1 : (s'.cur :: s'.rest)[n]? = some q.2 := by
    rw [h1, List.getElem?_append_left (by rw [List.length_map]; exact (List.getElem?_eq_some_iff.1 hq).1), List.getElem?_map, hq]; rfl
  have e2 : (s'.cur :: s'.rest)[n]? = some r.2 := by
    rw [h2, List.getElem?_append_left (by rw [List.length_map]; exact (List.getElem?_eq_some_iff.1 hr).1), List.getElem?_map, hr]; rfl
  rw [e1] at e2
  exact Option.some.inj e2

theorem joinSim_rest_nil (s : Sim I O) (s' : Sim I P) (h : s.rest = [] ∨ s'.rest = []) : (joinSim s s').rest = [] := by
  unfold joinSim
  split
  · rename_i hle
    rcases h with h | h
    · exact h
    · rw [h] at hle; exact List.length_eq_zero_iff.1 (by simpa using hle)
  · rename_i hle
    rcases h with h | h
    · rw [h] at hle; simp at hle
    · exact h

theorem combine_good {x : M I O Unit} {y : M I P Unit} (hx : Good x) (hy : Good y) : Good (combine x y) := by
  intro s
  obtain ⟨a1, a2⟩ := hx ⟨s.phase, s.out.1, s.prev, s.cur, s.rest⟩
  obtain ⟨b1, b2⟩ := hy ⟨s.phase, s.out.2, s.prev, s.cur, s.rest⟩
  unfold combine
  generalize x ⟨s.phase, s.out.1, s.prev, s.cur, s.rest⟩ = r at *
  generalize y ⟨s.phase, s.out.2, s.prev, s.cur, s.rest⟩ = r' at *
  obtain ⟨t, e⟩ := r
  obtain ⟨t', e'⟩ := r'
  simp only at a1 a2 b1 b2 ⊢
  have hsim : (joinEnd e e').sim = joinSim e.sim e'.sim := by cases e <;> cases e' <;> rfl
  have hlen : t.length + e.sim.rest.length = t'.length + e'.sim.rest.length := by
    have h1 := congrArg List.length a1
    have h2 := congrArg List.length b1
    simp at h1 h2
    omega
  constructor
  · rw [hsim, joinTrace_inp]
    unfold joinSim
    by_cases h : e.sim.rest.length ≤ e'.sim.rest.length
    · rw [if_pos h]
      simp only
      rw [List.drop_eq_nil_of_le (by omega)]
      simpa using a1
    · rw [if_neg h]
      simp only
      have htt : t.map Prod.snd ++ (t'.drop t.length).map Prod.snd = t'.map Prod.snd := by
        have h1 : (s.cur :: s.rest).take t.length = t.map Prod.snd := by
          rw [a1, List.take_append_of_le_length (by simp)]
          apply List.take_of_length_le; simp
        have h2 : (s.cur :: s.rest).take t.length = (t'.map Prod.snd).take t.length := by
          rw [b1, List.take_append_of_le_length (by simp; omega)]
        rw [← h1, h2, ← List.map_take, ← List.map_append, List.take_append_drop]
      rw [htt]
      exact b1
  · intro s' hs'
    have hj : s' = joinSim e.sim e'.sim := by rw [← hsim, hs']; rfl
    rw [hj]
    have hb : (∃ u, e = .blocked u) ∨ (∃ u, e' = .blocked u) := by
      cases e with
      | blocked u => exact .inl ⟨u, rfl⟩
      | err x u => cases e' <;> cases hs'
      | ok x u =>
        cases e' with
        | blocked u' => exact .inr ⟨u', rfl⟩
        | err => cases hs'
        | ok => cases hs'
    rcases hb with ⟨u, rfl⟩ | ⟨u, rfl⟩
    · exact joinSim_rest_nil _ _ (.inl (a2 u rfl))
    · exact joinSim_rest_nil _ _ (.inr (b2 u rfl))

/-! ### Write response -/

/-- body of the loop of `bLoop` -/
def bBody : Unit → M AxIn O (Unit ⊕ Nat) := fun _ => do
  readOnly
  let i ← inp
  if i.bvalid = .one ∧ i.bready = .one then do
    let r ← ofExcept (axiResp i.bresp)
    pure (.inr r)
  else do
    awaitEdge
    pure (.inl ())

theorem bFire_iff (i : AxIn) : bFire i = true ↔ i.bvalid = .one ∧ i.bready = .one := by simp [bFire]
theorem rFire_iff (i : AxIn) : rFire i = true ↔ i.rvalid = .one ∧ i.rready = .one := by simp [rFire]

theorem bBody_run (s : Sim AxIn O) (hs : s.phase ≠ .ro) :
    bBody () s = if bFire s.cur then (ofExcept (axiResp s.cur.bresp) >>= fun r => pure (.inr r)) { s with phase := .ro }
      else (awaitEdge >>= fun _ => pure (.inl ())) { s with phase := .ro } := by
  unfold bBody
  rw [bind_readOnly _ _ _ hs, bind_inp_ro _ _ rfl]
  simp only [← bFire_iff]
  split <;> rfl

theorem bBody_consumes : Consumes (bBody (O := O)) := by
  intro b s t b' s' h
  by_cases hs : s.phase = .ro
  · unfold bBody at h
    rw [bind_run] at h
    simp [readOnly, hs] at h
  · rw [bBody_run s hs] at h
    split at h
    · cases hr : axiResp s.cur.bresp with
      | ok r => rw [hr, bind_ofExcept_ok] at h; cases h
      | error e => rw [hr, bind_ofExcept_error] at h; cases h
    · exact consumes_of_edge { s with phase := .ro } _ (Good.pure _) t b' s' h

theorem bBody_good (b : Unit) : Good (bBody (O := O) b) :=
  Good.bind (Good.readOnly _) fun _ => Good.bind Good.inp fun _ => Good.ite (Good.bind (Good.ofExcept _) fun _ => Good.pure _)
    (Good.bind Good.awaitEdge fun _ => Good.pure _)

theorem bLoop_good : Good (bLoop (O := O)) := Good.loop _ bBody_consumes bBody_good ()

/-- the cycles without a response, then the response -/
theorem bLoop_run (rest : List AxIn) : ∀ (ph : Phase) (out : O) (prev cur : AxIn), ph ≠ .ro →
    let r := bLoop (⟨ph, out, prev, cur, rest⟩ : Sim AxIn O)
    ∃ ws : List AxIn, r.1 = ws.map (fun i => (out, i)) ∧ (∀ i ∈ ws, bFire i = false) ∧
      ((∃ s', bFire s'.cur = true ∧ s'.out = out ∧ s'.phase = .ro ∧ cur :: rest = ws ++ s'.cur :: s'.rest ∧
          ((∃ n, axiResp s'.cur.bresp = .ok n ∧ r.2 = .ok n s') ∨ (∃ e, axiResp s'.cur.bresp = .error e ∧ r.2 = .err e s'))) ∨
       (∃ s', r.2 = .blocked s' ∧ s'.out = out ∧ bFire s'.cur = false ∧ cur :: rest = ws ++ [s'.cur])) := by
  have hl : ∀ s : Sim AxIn O, bLoop s = loop bBody () s := fun _ => rfl
  induction rest with
  | nil =>
    intro ph out prev cur hp
    simp only
    rw [hl, loop_unfold _ bBody_consumes, bind_run, bBody_run _ hp]
    simp only
    cases hb : bFire cur with
    | true =>
      simp only [if_true]
      cases hr : axiResp cur.bresp with
      | ok n => rw [bind_ofExcept_ok]; exact ⟨[], rfl, by simp, .inl ⟨_, hb, rfl, rfl, rfl, .inl ⟨n, hr, rfl⟩⟩⟩
      | error e => rw [bind_ofExcept_error]; exact ⟨[], rfl, by simp, .inl ⟨_, hb, rfl, rfl, rfl, .inr ⟨e, hr, rfl⟩⟩⟩
    | false =>
      simp only [Bool.false_eq_true, if_false]
      rw [bind_awaitEdge_nil _ _ rfl]
      exact ⟨[], rfl, by simp, .inr ⟨_, rfl, rfl, hb, rfl⟩⟩
  | cons j r ih =>
    intro ph out prev cur hp
    simp only
    rw [hl, loop_unfold _ bBody_consumes, bind_run, bBody_run _ hp]
    simp only
    cases hb : bFire cur with
    | true =>
      simp only [if_true]
      cases hr : axiResp cur.bresp with
      | ok n => rw [bind_ofExcept_ok]; exact ⟨[], rfl, by simp, .inl ⟨_, hb, rfl, rfl, rfl, .inl ⟨n, hr, rfl⟩⟩⟩
      | error e => rw [bind_ofExcept_error]; exact ⟨[], rfl, by simp, .inl ⟨_, hb, rfl, rfl, rfl, .inr ⟨e, hr, rfl⟩⟩⟩
    | false =>
      simp only [Bool.false_eq_true, if_false]
      rw [bind_awaitEdge_cons _ _ j r rfl, pure_run]
      simp only [andThen_ok]
      obtain ⟨ws, h1, h2, h3⟩ := ih .edge out cur j (by decide)
      rw [hl] at h1 h3
      refine ⟨cur :: ws, ?_, ?_, ?_⟩
      · rw [List.map_cons, ← h1]; rfl
      · intro i hi
        rcases List.mem_cons.1 hi with rfl | hi
        · exact hb
        · exact h2 i hi
      · rcases h3 with ⟨s', a, b, c, d, e⟩ | ⟨s', a, b, c, d⟩
        · refine .inl ⟨s', a, b, c, by rw [d]; rfl, ?_⟩
          exact e
        · exact .inr ⟨s', a, b, c, by rw [d]; rfl⟩

/-- the end of `write` after both channels are done -/
def bPhase : M AxIn O Unit := do
  let result ← bLoop
  awaitEdge
  when (result ≠ 0) (raise (.axiProtocol result))

theorem bPhase_good : Good (bPhase (O := O)) :=
  Good.bind bLoop_good fun _ => Good.bind Good.awaitEdge fun _ => Good.when _ (Good.raise _)

theorem bPhase_run (s : Sim AxIn O) (hs : s.phase ≠ .ro) :
    (∀ q ∈ (bPhase s).1, q.1 = s.out) ∧ (bPhase s).2.sim.out = s.out ∧
    ((∃ t' q, (bPhase s).1 = t' ++ [q] ∧ (∀ p ∈ t', bFire p.2 = false) ∧ bFire q.2 = true ∧
        ∃ n, axiResp q.2.bresp = .ok n ∧ result (bPhase s) = some (if n = 0 then .ok () else .error (.axiProtocol n))) ∨
     (∃ i e, bFire i = true ∧ axiResp i.bresp = .error e ∧ (∀ p ∈ (bPhase s).1, bFire p.2 = false) ∧ result (bPhase s) = some (.error e) ∧
        (s.cur :: s.rest)[(bPhase s).1.length]? = some i) ∨
     (∀ p ∈ (bPhase s).1, bFire p.2 = false) ∧ result (bPhase s) = none) := by
  obtain ⟨ws, h1, h2, h3⟩ := bLoop_run (O := O) s.rest s.phase s.out s.prev s.cur hs
  have hst : (⟨s.phase, s.out, s.prev, s.cur, s.rest⟩ : Sim AxIn O) = s := rfl
  rw [hst] at h1 h3
  have hws : ∀ q ∈ ws.map (fun i => (s.out, i)), q.1 = s.out ∧ bFire q.2 = false := by
    intro q hq
    obtain ⟨i, hi, rfl⟩ := List.mem_map.1 hq
    exact ⟨rfl, h2 i hi⟩
  unfold bPhase
  rw [bind_run]
  rcases h3 with ⟨s', a, b, c, d, ⟨n, e, f⟩ | ⟨er, e, f⟩⟩ | ⟨s', a, b, c, d⟩
  · have hx : bLoop s = (ws.map (fun i => (s.out, i)), .ok n s') := by rw [← h1, ← f]
    rw [hx, andThen_ok]
    cases hr : s'.rest with
    | nil =>
      rw [bind_awaitEdge_nil _ _ hr]
      simp only [List.append_nil]
      exact ⟨fun q hq => (hws q hq).1, b, .inr (.inr ⟨fun q hq => (hws q hq).2, rfl⟩)⟩
    | cons j r =>
      rw [bind_awaitEdge_cons _ _ j r hr]
      have hfin : (when (n ≠ 0) (raise (.axiProtocol n)) : M AxIn O Unit) ⟨.edge, s'.out, s'.cur, j, r⟩ =
          ([], if n = 0 then .ok () ⟨.edge, s'.out, s'.cur, j, r⟩ else .err (.axiProtocol n) ⟨.edge, s'.out, s'.cur, j, r⟩) := by
        by_cases hn : n = 0 <;> simp [hn, Coro.when, Coro.raise, pure_run]
      simp only [hfin]
      refine ⟨?_, ?_, .inl ⟨ws.map (fun i => (s.out, i)), (s'.out, s'.cur), rfl, fun q hq => (hws q hq).2, a, n, e, ?_⟩⟩
      · intro q hq
        rcases List.mem_append.1 hq with hq | hq
        · exact (hws q hq).1
        · rw [List.mem_singleton] at hq; subst hq; exact b
      · by_cases hn : n = 0 <;> simp [hn, End.sim, b]
      · by_cases hn : n = 0 <;> simp [hn, result]
  · have hx : bLoop s = (ws.map (fun i => (s.out, i)), .err er s') := by rw [← h1, ← f]
    rw [hx, andThen_err]
    refine ⟨fun q hq => (hws q hq).1, b, .inr (.inl ⟨s'.cur, er, a, e, fun q hq => (hws q hq).2, rfl, ?_⟩)⟩
    rw [d]; simp
  · have hx : bLoop s = (ws.map (fun i => (s.out, i)), .blocked s') := by rw [← h1, ← a]
    rw [hx, andThen_blocked]
    exact ⟨fun q hq => (hws q hq).1, b, .inr (.inr ⟨fun q hq => (hws q hq).2, rfl⟩)⟩

/-! ### A whole write -/

theorem axiWriteRun_eq (c : AxCfg) (a : Nat) (data : List Nat) (size : Nat) (burst : AxiBurst) (be : List (Option Nat)) (al dl : Nat) (sync : Bool) :
    axiWriteRun c a data size burst be al dl sync =
      (combine (sendWriteAddress c a data.length burst size al sync) (sendWriteData c a data burst size dl be sync) >>= fun _ => bPhase) := rfl

theorem axiResp_ok (v : LogicArray) (n : Nat) : axiResp v = .ok n ↔ respIs v n := by
  unfold axiResp respIs
  split
  · rename_i h
    split
    · rename_i h2
      constructor
      · intro h; cases h; exact ⟨‹_›, rfl, h2⟩
      · rintro ⟨_, rfl, _⟩; rfl
    · rename_i h2
      constructor
      · intro h; cases h
      · rintro ⟨_, rfl, h⟩; exact absurd h h2
  · rename_i h
    constructor
    · intro h; cases h
    · rintro ⟨h', _⟩; exact absurd h' h

theorem axiResp_err (v : LogicArray) (e : PyErr) (h : axiResp v = .error e) : e = .valueError := by
  unfold axiResp at h
  split at h
  · split at h <;> cases h
    rfl
  · cases h; rfl

/-- the two channels of a write -/
theorem combine_left {x : M I O Unit} {y : M I P Unit} (hx : Good x) (hy : Good y) (s : Sim I (O × P)) :
    ∃ u, ((combine x y s).1.map fun r => (r.1.1, r.2)) = (x ⟨s.phase, s.out.1, s.prev, s.cur, s.rest⟩).1 ++ u ∧
      (∀ q ∈ u, q.1 = (x ⟨s.phase, s.out.1, s.prev, s.cur, s.rest⟩).2.sim.out) ∧
      (∀ s', (x ⟨s.phase, s.out.1, s.prev, s.cur, s.rest⟩).2 = .blocked s' → u = []) := by
  obtain ⟨a1, a2⟩ := hx ⟨s.phase, s.out.1, s.prev, s.cur, s.rest⟩
  obtain ⟨b1, b2⟩ := hy ⟨s.phase, s.out.2, s.prev, s.cur, s.rest⟩
  unfold combine
  generalize x ⟨s.phase, s.out.1, s.prev, s.cur, s.rest⟩ = r at *
  generalize y ⟨s.phase, s.out.2, s.prev, s.cur, s.rest⟩ = r' at *
  simp only at a1 a2 b1 b2 ⊢
  refine ⟨_, joinTrace_left _ _ _ _, ?_, ?_⟩
  · intro q hq
    obtain ⟨p, _, rfl⟩ := List.mem_map.1 hq
    rfl
  · intro s' hs'
    have hr := a2 s' hs'
    have h1 := congrArg List.length a1
    have h2 := congrArg List.length b1
    rw [hs'] at h1
    simp [End.sim, hr] at h1 h2
    rw [List.drop_eq_nil_of_le (by omega)]
    rfl

theorem combine_right {x : M I O Unit} {y : M I P Unit} (hx : Good x) (hy : Good y) (s : Sim I (O × P)) :
    ∃ u, ((combine x y s).1.map fun r => (r.1.2, r.2)) = (y ⟨s.phase, s.out.2, s.prev, s.cur, s.rest⟩).1 ++ u ∧
      (∀ q ∈ u, q.1 = (y ⟨s.phase, s.out.2, s.prev, s.cur, s.rest⟩).2.sim.out) ∧
      (∀ s', (y ⟨s.phase, s.out.2, s.prev, s.cur, s.rest⟩).2 = .blocked s' → u = []) := by
  have hag := good_agree hx hy ⟨s.phase, s.out.1, s.prev, s.cur, s.rest⟩ ⟨s.phase, s.out.2, s.prev, s.cur, s.rest⟩ ⟨rfl, rfl⟩
  obtain ⟨a1, a2⟩ := hx ⟨s.phase, s.out.1, s.prev, s.cur, s.rest⟩
  obtain ⟨b1, b2⟩ := hy ⟨s.phase, s.out.2, s.prev, s.cur, s.rest⟩
  unfold combine
  generalize x ⟨s.phase, s.out.1, s.prev, s.cur, s.rest⟩ = r at *
  generalize y ⟨s.phase, s.out.2, s.prev, s.cur, s.rest⟩ = r' at *
  simp only at a1 a2 b1 b2 ⊢
  refine ⟨_, joinTrace_right _ _ _ _ hag, ?_, ?_⟩
  · intro q hq
    obtain ⟨p, _, rfl⟩ := List.mem_map.1 hq
    rfl
  · intro s' hs'
    have hr := b2 s' hs'
    have h1 := congrArg List.length a1
    have h2 := congrArg List.length b1
    rw [hs'] at h2
    simp [End.sim, hr] at h1 h2
    rw [List.drop_eq_nil_of_le (by omega)]
    rfl

theorem combine_length {x : M I O Unit} {y : M I P Unit} (s : Sim I (O × P)) :
    (combine x y s).1.length = max (x ⟨s.phase, s.out.1, s.prev, s.cur, s.rest⟩).1.length (y ⟨s.phase, s.out.2, s.prev, s.cur, s.rest⟩).1.length := by
  unfold combine
  simp only
  have := congrArg List.length (joinTrace_left (x ⟨s.phase, s.out.1, s.prev, s.cur, s.rest⟩).1 (x ⟨s.phase, s.out.1, s.prev, s.cur, s.rest⟩).2.sim.out
    (y ⟨s.phase, s.out.2, s.prev, s.cur, s.rest⟩).2.sim.out (y ⟨s.phase, s.out.2, s.prev, s.cur, s.rest⟩).1)
  simp only [List.length_map, List.length_append, List.length_drop] at this
  omega

theorem holds_take (V : Stream I O P) (a b : List (O × I)) (h : V.Holds (a ++ b)) : V.Holds a := by
  induction a with
  | nil => trivial
  | cons r a ih =>
    have h1 := ih (holds_tail V _ _ h)
    cases a with
    | nil => trivial
    | cons x a => exact ⟨h.1, h1⟩

theorem Runs.burst {V : Stream I O P} {l : List P} {ns : List Nat} {r : Res I O Unit} {post : Unit → Sim I O → Prop} (h : Runs V l ns r post)
    (hns : ns.length = l.length) (u : List (O × I)) (hu : ∀ q ∈ u, q.1 = r.2.sim.out) (hb : ∀ s', r.2 = .blocked s' → u = [])
    (hpost : ∀ s', post () s' → V.valid s'.out = false) :
    V.Burst l ns (r.1 ++ u) r.2.isOk ∧ (∀ e s', r.2 ≠ .err e s') ∧ (∀ s', r.2 = .ok () s' → post () s') := by
  obtain ⟨k, hk, h1, h2, h3, h4, h5⟩ := h
  have hh := holds_take V _ _ h3
  rcases h5 with ⟨h5, h6, h7, a, s', h8, h9⟩ | ⟨h5, s', h6, -⟩
  · refine ⟨⟨r.1, u, rfl, hh, h4, ?_, ?_⟩, ?_, ?_⟩
    · intro q hq
      rw [hu q hq, h8]
      exact hpost _ h9
    · rw [h8]
      simp only [End.isOk, if_true]
      refine ⟨by rw [h1, h5, List.take_length], by rw [h2, h5, ← hns, List.take_length], ?_⟩
      intro hl
      have hne : r.1 ≠ [] := by
        intro h0
        rw [h0] at h1
        have : l.take k = [] := h1.symm
        rw [h5, List.take_length] at this
        exact hl this
      exact ⟨r.1.getLast hne, List.getLast?_eq_some_getLast hne, h7 _ (List.getLast?_eq_some_getLast hne)⟩
    · intro e t h; rw [h8] at h; cases h
    · intro t h; rw [h8] at h; cases h; exact h9
  · have hu' := hb s' h6
    subst hu'
    refine ⟨⟨r.1, [], rfl, hh, h4, by simp, ?_⟩, ?_, ?_⟩
    · rw [h6]
      simp only [End.isOk, Bool.false_eq_true, if_false]
      exact ⟨trivial, k, h5, h1, h2⟩
    · intro e t h; rw [h6] at h; cases h
    · intro t h; rw [h6] at h; cases h

theorem Stream.Burst.extend {V : Stream I O P} {l : List P} {ns : List Nat} {t : List (O × I)} (h : V.Burst l ns t true) (u : List (O × I))
    (hu : ∀ q ∈ u, V.valid q.1 = false) : V.Burst l ns (t ++ u) true := by
  obtain ⟨t1, t2, h1, h2, h0, h3, h4⟩ := h
  refine ⟨t1, t2 ++ u, by rw [h1, List.append_assoc], h2, h0, ?_, h4⟩
  intro q hq
  rcases List.mem_append.1 hq with hq | hq
  · exact h3 q hq
  · exact hu q hq

theorem Stream.Once.extend {V : Stream I O P} {p : P} {n : Nat} {t : List (O × I)} (h : V.Once p n t true) (u : List (O × I))
    (hu : ∀ q ∈ u, V.valid q.1 = false) : V.Once p n (t ++ u) true := by
  obtain ⟨t1, t2, h1, h2, h3, h4⟩ := h
  refine ⟨t1, t2 ++ u, by rw [h1, List.append_assoc], h2, (by simp), ?_⟩
  intro q hq
  rcases List.mem_append.1 hq with hq | hq
  · exact h4 q hq
  · exact hu q hq

theorem combine_ok {x : M I O Unit} {y : M I P Unit} (s : Sim I (O × P)) (s1 : Sim I O) (s2 : Sim I P)
    (h1 : (x ⟨s.phase, s.out.1, s.prev, s.cur, s.rest⟩).2 = .ok () s1) (h2 : (y ⟨s.phase, s.out.2, s.prev, s.cur, s.rest⟩).2 = .ok () s2) :
    (combine x y s).2 = .ok () (joinSim s1 s2) := by
  unfold combine
  simp only [h1, h2]
  rfl

theorem combine_blocked {x : M I O Unit} {y : M I P Unit} (s : Sim I (O × P))
    (h1 : ∀ e s', (x ⟨s.phase, s.out.1, s.prev, s.cur, s.rest⟩).2 ≠ .err e s') (h2 : ∀ e s', (y ⟨s.phase, s.out.2, s.prev, s.cur, s.rest⟩).2 ≠ .err e s')
    (hb : ((x ⟨s.phase, s.out.1, s.prev, s.cur, s.rest⟩).2.isOk && (y ⟨s.phase, s.out.2, s.prev, s.cur, s.rest⟩).2.isOk) = false) :
    ∃ s', (combine x y s).2 = .blocked s' := by
  unfold combine
  generalize x ⟨s.phase, s.out.1, s.prev, s.cur, s.rest⟩ = r at *
  generalize y ⟨s.phase, s.out.2, s.prev, s.cur, s.rest⟩ = r' at *
  obtain ⟨t, e⟩ := r
  obtain ⟨t', e'⟩ := r'
  cases e <;> cases e' <;> simp_all [joinEnd, End.isOk]

theorem wReqs_length (c : AxCfg) (l : List (Nat × Nat)) : (wReqs c l).length = l.length := by
  induction l with
  | nil => rfl
  | cons q r ih => simp [wReqs, ih]

theorem wReqs_ne (c : AxCfg) (l : List (Nat × Nat)) (h : l ≠ []) : wReqs c l ≠ [] := by
  intro h0
  have := wReqs_length c l
  rw [h0] at this
  exact h (List.length_eq_zero_iff.1 this.symm)

theorem mem_getLast_append {β : Type} (a b : List β) (q : β) (h : (a ++ b).getLast? = some q) (hb : b = []) : a.getLast? = some q := by
  subst hb; simpa using h

/-- everything about a write -/
theorem axiWriteRun_spec (c : AxCfg) (a : Nat) (data : List Nat) (size : Nat) (burst : AxiBurst) (be : List (Option Nat)) (al dl : Nat) (sync : Bool)
    (hf : AddrFits c a data.length size) (hsz : 0 < size) (beats : List (Nat × Nat)) (hb : axiWriteBeats c.dataBytes size a burst data be = .ok beats)
    (hne : beats ≠ []) (hl : ∀ x ∈ beats, x.1 < 2 ^ (8 * c.dataBytes) ∧ x.2 < 2 ^ c.dataBytes) (hd : dl = 0 ∨ beats.length = 1)
    (s : Sim AxIn (AddrOut × WOut)) (hs : sync = true ∨ s.phase ≠ .ro) (h0 : s.out.1.valid = .zero) (h0' : s.out.2.valid = .zero)
    (hresp : ∀ i ∈ s.cur :: s.rest, bFire i = true → ∃ n, respIs i.bresp n) :
    let r := axiWriteRun c a data size burst be al dl sync s
    ∃ tc tb aw w, r.1 = tc ++ tb ∧
      (awStream c).Once (addrReq c a data.length size burst) (al + if sync then 1 else 0) (awTrace r.1) aw ∧
      (wStream c).Burst (wReqs c beats) ((dl + if sync then 1 else 0) :: List.replicate (beats.length - 1) 0) (wTrace r.1) w ∧
      ((aw && w) = false → tb = [] ∧ result r = none) ∧
      ((aw && w) = true → (∀ q ∈ tb, (awStream c).valid q.1.1 = false ∧ (wStream c).valid q.1.2 = false) ∧ WriteResponse tb (result r) ∧
        ∃ q, tc.getLast? = some q ∧ ((awStream c).xfer (q.1.1, q.2) = true ∨ (wStream c).xfer (q.1.2, q.2) = true)) := by
  intro r
  have hA := sendWriteAddress_offers c a data.length size al burst sync hf hsz ⟨s.phase, s.out.1, s.prev, s.cur, s.rest⟩ hs h0
  have hW := sendBeats_first c dl sync beats hd hne hl ⟨s.phase, s.out.2, s.prev, s.cur, s.rest⟩ hs h0'
  have gA := sendWriteAddress_good c a data.length size al burst sync
  have gW := sendWriteData_good c a data burst size dl be sync
  rw [← sendWriteData_eq c a data burst size dl be sync beats hb] at hW
  obtain ⟨u, hu1, hu2, hu3⟩ := combine_left gA gW s
  obtain ⟨v, hv1, hv2, hv3⟩ := combine_right gA gW s
  have hlen := combine_length (x := sendWriteAddress c a data.length burst size al sync) (y := sendWriteData c a data burst size dl be sync) s
  have hgc := combine_good gA gW s
  obtain ⟨qa, qb, qe⟩ := hA.request
  obtain ⟨wa, we, wb⟩ := hW.burst (by simp [wReqs_length]; have := List.length_pos_iff.2 hne; omega) v hv2 hv3 (fun s' h => by simp [wStream, h.2])
  -- the last record of either
  have hAlast : ∀ s', (sendWriteAddress c a data.length burst size al sync ⟨s.phase, s.out.1, s.prev, s.cur, s.rest⟩).2 = .ok () s' →
      ∃ q, (sendWriteAddress c a data.length burst size al sync ⟨s.phase, s.out.1, s.prev, s.cur, s.rest⟩).1.getLast? = some q ∧ (awStream c).xfer q = true := by
    intro s' hs'
    rw [hs'] at qa
    obtain ⟨idle, held, _, _, h⟩ := qa
    simp only [End.isOk, if_true] at h
    obtain ⟨_, q, h1, h2, _, h4⟩ := h
    exact ⟨q, by rw [h1]; simp, by simp [Stream.xfer, h2, h4]⟩
  have hWlast : ∀ s', (sendWriteData c a data burst size dl be sync ⟨s.phase, s.out.2, s.prev, s.cur, s.rest⟩).2 = .ok () s' →
      ∃ q, (sendWriteData c a data burst size dl be sync ⟨s.phase, s.out.2, s.prev, s.cur, s.rest⟩).1.getLast? = some q ∧ (wStream c).xfer q = true := by
    intro s' hs'
    obtain ⟨k, hk, h1, h2, h3, h4, h5⟩ := hW
    rcases h5 with ⟨h5, h6, h7, _⟩ | ⟨_, s'', h6, -⟩
    · have hne' : (sendWriteData c a data burst size dl be sync ⟨s.phase, s.out.2, s.prev, s.cur, s.rest⟩).1 ≠ [] := by
        intro h0
        rw [h0, h5, List.take_length] at h1
        exact wReqs_ne c beats hne h1.symm
      exact ⟨_, List.getLast?_eq_some_getLast hne', h7 _ (List.getLast?_eq_some_getLast hne')⟩
    · rw [h6] at hs'; cases hs'
  have hrr : r = Res.andThen (combine (sendWriteAddress c a data.length burst size al sync) (sendWriteData c a data burst size dl be sync) s) (fun _ => bPhase) := by
    show axiWriteRun c a data size burst be al dl sync s = _
    rw [axiWriteRun_eq, bind_run]
  generalize hx : sendWriteAddress c a data.length burst size al sync = X at *
  generalize hy : sendWriteData c a data burst size dl be sync = Y at *
  have honce : (awStream c).Once (addrReq c a data.length size burst) (al + if sync then 1 else 0) (awTrace (combine X Y s).1)
      (X ⟨s.phase, s.out.1, s.prev, s.cur, s.rest⟩).2.isOk := by
    refine ⟨_, u, hu1, qa, ?_, ?_⟩
    · intro hf
      cases he : (X ⟨s.phase, s.out.1, s.prev, s.cur, s.rest⟩).2 with
      | ok _ s' => rw [he] at hf; cases hf
      | err e s' => exact absurd he (qe e s')
      | blocked s' => exact hu3 s' he
    · intro q hq
      cases he : (X ⟨s.phase, s.out.1, s.prev, s.cur, s.rest⟩).2 with
      | ok _ s' => 
        rw [hu2 q hq, he]
        have := (qb _ s' he).2
        simp [End.sim, awStream, this]
      | err e s' => exact absurd he (qe e s')
      | blocked s' => rw [hu3 s' he] at hq; cases hq
  have hburst : (wStream c).Burst (wReqs c beats) ((dl + if sync then 1 else 0) :: List.replicate (beats.length - 1) 0) (wTrace (combine X Y s).1)
      (Y ⟨s.phase, s.out.2, s.prev, s.cur, s.rest⟩).2.isOk := by
    show (wStream c).Burst _ _ ((combine X Y s).1.map fun r => (r.1.2, r.2)) _
    rw [hv1]; exact wa
  cases hb : ((X ⟨s.phase, s.out.1, s.prev, s.cur, s.rest⟩).2.isOk && (Y ⟨s.phase, s.out.2, s.prev, s.cur, s.rest⟩).2.isOk) with
  | false =>
    obtain ⟨s', hs'⟩ := combine_blocked (x := X) (y := Y) s qe we hb
    have hxy : combine X Y s = ((combine X Y s).1, .blocked s') := by rw [← hs']
    have hr : r = ((combine X Y s).1, .blocked s') := by rw [hrr, hxy, andThen_blocked]
    refine ⟨(combine X Y s).1, [], _, _, by rw [hr]; simp, by rw [hr]; exact honce, by rw [hr]; exact hburst, ?_, ?_⟩
    · intro _; exact ⟨rfl, by rw [hr]; rfl⟩
    · intro h; rw [hb] at h; cases h
  | true =>
    cases heX : (X ⟨s.phase, s.out.1, s.prev, s.cur, s.rest⟩).2 with
    | err e s' => exact absurd heX (qe e s')
    | blocked s' => rw [heX] at hb; simp [End.isOk] at hb
    | ok x1 s1 =>
    cases heY : (Y ⟨s.phase, s.out.2, s.prev, s.cur, s.rest⟩).2 with
    | err e s' => exact absurd heY (we e s')
    | blocked s' => rw [heY] at hb; simp [End.isOk] at hb
    | ok x2 s2 =>
    have hok := combine_ok s s1 s2 heX heY
    have hxy : combine X Y s = ((combine X Y s).1, .ok () (joinSim s1 s2)) := by rw [← hok]
    have hr : r = ((combine X Y s).1 ++ (bPhase (joinSim s1 s2)).1, (bPhase (joinSim s1 s2)).2) := by rw [hrr, hxy, andThen_ok]
    have p1 := qb _ _ heX
    have p2 := wb _ heY
    have hph : (joinSim s1 s2).phase ≠ .ro := by
      unfold joinSim
      split
      · rw [show (_ : Sim AxIn (AddrOut × WOut)).phase = s1.phase from rfl, p1.1]; decide
      · exact p2.1
    have hout : (joinSim s1 s2).out = (s1.out, s2.out) := by unfold joinSim; split <;> rfl
    obtain ⟨b1, b2, b3⟩ := bPhase_run (joinSim s1 s2) hph
    have hinp : ∀ i ∈ (joinSim s1 s2).cur :: (joinSim s1 s2).rest, i ∈ s.cur :: s.rest := by
      intro i hi
      have := hgc.1
      rw [hok] at this
      rw [this]
      exact List.mem_append_right _ hi
    rw [heX] at honce
    rw [heY] at hburst
    refine ⟨(combine X Y s).1, (bPhase (joinSim s1 s2)).1, true, true, by rw [hr], ?_, ?_, by simp, ?_⟩
    · rw [hr]
      simp only [awTrace, List.map_append]
      refine Stream.Once.extend honce _ ?_
      intro q hq
      obtain ⟨p, hp, rfl⟩ := List.mem_map.1 hq
      simp [b1 p hp, hout, awStream, p1.2]
    · rw [hr]
      simp only [wTrace, List.map_append]
      refine Stream.Burst.extend hburst _ ?_
      intro q hq
      obtain ⟨p, hp, rfl⟩ := List.mem_map.1 hq
      simp [b1 p hp, hout, wStream, p2.2]
    · intro _
      refine ⟨fun q hq => ⟨by simp [b1 q hq, hout, awStream, p1.2], by simp [b1 q hq, hout, wStream, p2.2]⟩, ?_⟩
      constructor
      · have hres : result r = result (bPhase (joinSim s1 s2)) := by rw [hr]; rfl
        rw [hres]
        rcases b3 with ⟨t', q, h1, h2, h3, n, h4, h5⟩ | ⟨i, e, h1, h2, _, _, h3⟩ | ⟨h1, h2⟩
        · exact .inr ⟨t', q, n, h1, h2, h3, (axiResp_ok _ _).1 h4, h5⟩
        · exfalso
          obtain ⟨n, hn⟩ := hresp i (hinp i (List.mem_of_getElem? h3)) h1
          rw [(axiResp_ok _ _).2 hn] at h2
          cases h2
        · exact .inl ⟨h2, h1⟩
      · obtain ⟨qA, hqA, hxA⟩ := hAlast s1 heX
        obtain ⟨qW, hqW, hxW⟩ := hWlast s2 heY
        have hne0 : (combine X Y s).1 ≠ [] := by
          intro h0
          rw [h0] at hu1
          have : (X ⟨s.phase, s.out.1, s.prev, s.cur, s.rest⟩).1 = [] := (List.append_eq_nil_iff.1 hu1.symm).1
          rw [this] at hqA; cases hqA
        refine ⟨_, List.getLast?_eq_some_getLast hne0, ?_⟩
        by_cases hle : (Y ⟨s.phase, s.out.2, s.prev, s.cur, s.rest⟩).1.length ≤ (X ⟨s.phase, s.out.1, s.prev, s.cur, s.rest⟩).1.length
        · left
          have hu0 : u = [] := by
            have := congrArg List.length hu1
            simp at this
            exact List.length_eq_zero_iff.1 (by omega)
          have := congrArg List.getLast? hu1
          rw [hu0, List.append_nil, List.getLast?_map, List.getLast?_eq_some_getLast hne0, hqA] at this
          simp only [Option.map_some, Option.some.injEq] at this
          rw [this]; exact hxA
        · right
          have hv0 : v = [] := by
            have := congrArg List.length hv1
            simp at this
            exact List.length_eq_zero_iff.1 (by omega)
          have := congrArg List.getLast? hv1
          rw [hv0, List.append_nil, List.getLast?_map, List.getLast?_eq_some_getLast hne0, hqW] at this
          simp only [Option.map_some, Option.some.injEq] at this
          rw [this]; exact hxW

end CocotbBus
