import Verif.Spec.AxiTry
import Verif.Proof.AxiLive
import Verif.Proof.Len

namespace CocotbBus
open Spec Coro

/-- the step with the same trace that does not raise -/
def plain : AxCall → AxOp
  | (op, none) => op
  | (op, some e) => .pause (edgesLost op e)

/-- the outcome of a call, given that of the plain step -/
def reported (q : AxCall) (x : Except PyErr (List LogicArray)) : Except PyErr (List LogicArray) :=
  match q.2 with
  | none => x
  | some e => .error e

/-- the plain step, then the exception -/
def thenErr (e : PyErr) : Res AxIn AxAll (List LogicArray) → Res AxIn AxAll (List LogicArray)
  | (t, .ok _ s) => (t, .err e s)
  | r => r

theorem axiChecks_illegal (c : AxCfg) (hc : Standard c) (a : Nat) (len : Int) (size : Option Int) (burst : AxiBurst)
    (h : ¬ ∃ sz, Legal c a len size burst sz) : axiChecks c a len size burst = .error .valueError := by
  obtain ⟨⟨j, hj, hW⟩, _⟩ := hc
  rcases axiChecks_cases c a len size burst with ⟨sz, h1⟩ | h1
  · exact absurd ⟨sz, (axiChecks_ok c a len size burst sz j hW (by omega)).1 h1⟩ h
  · exact h1

theorem pause_zero (c : AxCfg) (s : Sim AxIn AxAll) : axStep c (.pause 0) s = ([], .ok [] s) := rfl

theorem readBig_onRead (c : AxCfg) (a len size : Nat) (burst : AxiBurst) (sync : Bool) (ha : 2 ^ c.addrW ≤ a) {α : Type}
    (f : (List LogicArray ⊕ List (LogicArray × Nat)) → M AxIn AddrOut α) (g : α → M AxIn AxAll (List LogicArray)) (s : Sim AxIn AxAll) :
    (onRead (axiReadRun c a len size burst false sync >>= f) >>= g) s = thenErr .overflowError (axStep c (.pause (if sync then 1 else 0)) s) := by
  rw [bind_run]
  cases sync with
  | false =>
    unfold onRead
    rw [bind_run, axiReadRun_big_now c a len size burst false (by omega)]
    rfl
  | true =>
    unfold onRead
    have e : axiReadRun c a len size burst false true = (awaitEdge >>= fun _ => axiReadRun c a len size burst false false) := by
      unfold axiReadRun sendReadAddress
      simp only [Coro.when, if_true, Bool.false_eq_true, if_false, pure_bind, bind_assoc]
    have e2 : axStep c (.pause 1) = ((awaitEdge : M AxIn AxAll Unit) >>= fun _ => pure []) := by
      show (edges 1 >>= fun _ => pure []) = _
      simp only [edges, bind_assoc, pure_bind]
    rw [e, if_pos rfl, e2]
    obtain ⟨ph, o, pr, cu, rest⟩ := s
    cases rest with
    | nil =>
      rw [bind_run, bind_run, awaitEdge_nil _ rfl, bind_run, awaitEdge_nil _ rfl]
      rfl
    | cons i r =>
      rw [bind_run, bind_run, awaitEdge_cons _ i r rfl, bind_run, awaitEdge_cons _ i r rfl]
      simp only [andThen_ok]
      rw [axiReadRun_big_now c a len size burst false (by omega)]
      rfl

theorem axStep_rejected (c : AxCfg) (hc : Standard c) (op : AxOp) (e : PyErr) (h : Rejected c e op) (s : Sim AxIn AxAll) :
    axStep c op s = thenErr e (axStep c (.pause (edgesLost op e)) s) := by
  cases op with
  | write a v size burst be al dl sync =>
    obtain ⟨rfl, h⟩ := h
    show (onWrite (axiWrite c a v size burst be al dl sync) >>= fun _ => pure []) s = _
    rw [bind_run]
    unfold onWrite axiWrite
    rw [axiChecks_illegal c hc a _ size burst h]
    rfl
  | read a len size burst sync =>
    rcases h with ⟨rfl, h⟩ | ⟨rfl, ⟨sz, hl⟩, ha⟩
    · show (onRead (axiRead c a len size burst false sync) >>= fun d => pure (d.elim id (fun l => l.map Prod.fst))) s = _
      rw [bind_run]
      unfold onRead axiRead
      rw [axiChecks_illegal c hc a _ size burst h]
      rfl
    · have := readBig_onRead c a len.toNat sz burst sync ha pure (fun d => pure (d.elim id (fun l => l.map Prod.fst))) s
      rw [bind_pure, ← axiRead_legal c hc a len size burst false sync sz hl] at this
      exact this
  | liteWrite => exact h.elim
  | liteRead a sync =>
    obtain ⟨rfl, ha⟩ := h
    have := readBig_onRead c a 1 c.dataBytes .incr sync ha liteFirst (fun d => pure [d]) s
    rw [show (1 : Nat) = (1 : Int).toNat from rfl, ← axiRead_legal c hc a 1 none .incr false sync c.dataBytes (legal_single c hc a)] at this
    exact this
  | pause => exact h.elim

theorem axTry_eq (c : AxCfg) (op : AxOp) (ops : List AxOp) (s : Sim AxIn AxAll) :
    axTry c (op :: ops) s = match axStep c op s with
      | (t, .ok d s') => (.ok d :: (axTry c ops s').1, t ++ (axTry c ops s').2.1, (axTry c ops s').2.2)
      | (t, .err e s') => (.error e :: (axTry c ops s').1, t ++ (axTry c ops s').2.1, (axTry c ops s').2.2)
      | (t, .blocked s') => ([], t, .blocked s') := rfl

theorem pause_cases (n : Nat) (c : AxCfg) (s : Sim AxIn AxAll) :
    (∃ t s', axStep c (.pause n) s = (t, .ok [] s')) ∨ (∃ t s', axStep c (.pause n) s = (t, .blocked s')) := by
  have : axStep c (.pause n) s = Res.andThen ((edges n : M AxIn AxAll Unit) s) (fun _ => pure []) := rfl
  rw [this]
  have hn : ∀ n (s s' : Sim AxIn AxAll) (e : PyErr), ((edges n : M AxIn AxAll Unit) s).2 ≠ .err e s' := by
    intro n s s' e
    have : NoErr e (edges n : M AxIn AxAll Unit) := by
      induction n with
      | zero => exact NoErr.pure _
      | succ n ih => exact NoErr.bind NoErr.awaitEdge fun _ => ih
    exact this s s'
  have := hn n s
  generalize (edges n : M AxIn AxAll Unit) s = r at this ⊢
  obtain ⟨t, e⟩ := r
  cases e with
  | ok a s' => exact .inl ⟨_, _, rfl⟩
  | err e s' => exact absurd rfl (this s' e)
  | blocked s' => exact .inr ⟨_, _, rfl⟩

theorem axTry_plain (c : AxCfg) (hc : Standard c) (calls : List AxCall) : ∀ s : Sim AxIn AxAll, (∀ op e, (op, some e) ∈ calls → Rejected c e op) →
    (∀ e s', (axUse c (calls.map plain) s).2.2 ≠ .err e s') →
    axTry c (calls.map Prod.fst) s = (List.zipWith reported calls (axUse c (calls.map plain) s).1, (axUse c (calls.map plain) s).2) := by
  induction calls with
  | nil => intro s _ _; rfl
  | cons q calls ih =>
    intro s hq he
    obtain ⟨op, v⟩ := q
    have ih := fun s' => ih s' (fun op e h => hq op e (List.mem_cons_of_mem _ h))
    rw [List.map_cons, axUse_eq] at he
    rw [List.map_cons, List.map_cons, axUse_eq, axTry_eq]
    cases v with
    | none =>
      simp only [plain] at he ⊢
      generalize axStep c op s = r at he ⊢
      obtain ⟨t, e⟩ := r
      cases e with
      | ok d s' => simp only at he ⊢; rw [ih s' he]; rfl
      | err e s' =>
        cases e with
        | axiProtocol n => simp only at he ⊢; rw [ih s' he]; rfl
        | _ => exact absurd rfl (he _ s')
      | blocked s' => rfl
    | some e =>
      rw [axStep_rejected c hc op e (hq op e (by simp)) s]
      simp only [plain] at he ⊢
      rcases pause_cases (edgesLost op e) c s with ⟨t, s', h⟩ | ⟨t, s', h⟩
      · rw [h] at he ⊢
        simp only [thenErr] at he ⊢
        rw [ih s' he]; rfl
      · rw [h]; rfl

theorem weave_plain (c : AxCfg) (code : Nat → Nat → Nat) (calls : List AxCall) : ∀ (k : Nat) (mem : Nat → Byte),
    List.zipWith reported calls (axOutcomes c code k (calls.map plain) mem) = weave calls (axOutcomes c code k (accepted calls) mem) ∧
    axLast c code k (calls.map plain) mem = axLast c code k (accepted calls) mem := by
  induction calls with
  | nil => intro k mem; exact ⟨rfl, rfl⟩
  | cons q calls ih =>
    intro k mem
    obtain ⟨op, v⟩ := q
    cases v with
    | none =>
      obtain ⟨h1, h2⟩ := ih (k + axRequests op) (axNext c (code k) op mem)
      exact ⟨congrArg (axOutcome c (code k) op mem :: ·) h1, h2⟩
    | some e =>
      obtain ⟨h1, h2⟩ := ih k mem
      exact ⟨congrArg (Except.error e :: ·) h1, h2⟩

theorem requests_plain (calls : List AxCall) : ((calls.map plain).map axRequests).sum = ((accepted calls).map axRequests).sum := by
  induction calls with
  | nil => rfl
  | cons q calls ih =>
    obtain ⟨op, v⟩ := q
    cases v with
    | none => exact congrArg (axRequests op + ·) ih
    | some e => simpa [plain, axRequests, accepted] using ih

theorem zipWith_prefix {α β γ : Type} (f : α → β → γ) (x y : List β) : ∀ l : List α, List.zipWith f l x ++ List.zipWith f (l.drop x.length) y = List.zipWith f l (x ++ y) := by
  induction x with
  | nil => intro l; simp
  | cons b x ih =>
    intro l
    cases l with
    | nil => simp
    | cons a l => simpa using ih l

theorem plain_ok (c : AxCfg) (calls : List AxCall) (h : ∀ q ∈ calls, CallOk c q) : ∀ op ∈ calls.map plain, AxOpOk c op := by
  intro op hop
  obtain ⟨⟨o, v⟩, hq, rfl⟩ := List.mem_map.1 hop
  cases v with
  | none => exact h _ hq
  | some e => trivial

theorem cost_plain (N : Nat) (calls : List AxCall) : (calls.map plain).map (axCost N) = calls.map (callCost N) := by
  rw [List.map_map]
  apply List.map_congr_left
  rintro ⟨op, v⟩ _
  cases v <;> rfl

theorem axTry_calls (c : AxCfg) (hc : Standard c) (calls : List AxCall) (h : ∀ q ∈ calls, CallOk c q) (s : Sim AxIn AxAll)
    (hu : ∀ e s', (axUse c (calls.map plain) s).2.2 ≠ .err e s') :
    axTry c (calls.map Prod.fst) s = (List.zipWith reported calls (axUse c (calls.map plain) s).1, (axUse c (calls.map plain) s).2) :=
  axTry_plain c hc calls s (fun op e hm => h (op, some e) hm) hu

/-- the trace is that of the plain steps, as long as these have not raised -/
theorem axTry_serves (c : AxCfg) (hc : Standard c) (calls : List AxCall) (h : ∀ q ∈ calls, CallOk c q) (code : Nat → Nat → Nat) : ∀ (k : Nat) (mem : Nat → Byte)
    (s : Sim AxIn AxAll), AxReady s → (∀ i ∈ s.cur :: s.rest, GoodBeat c.dataBytes i ∧ GoodResp i) →
    AxMem.Serves c (AxMem.idle code k mem) (axTry c (calls.map Prod.fst) s).2.1 → (axTry c (calls.map Prod.fst) s).2 = (axUse c (calls.map plain) s).2 := by
  induction calls with
  | nil => intro k mem s _ _ _; rfl
  | cons q calls ih =>
    intro k mem s hs hg hserve
    have ih := ih (fun q hq => h q (List.mem_cons_of_mem _ hq))
    obtain ⟨op, v⟩ := q
    have hq := h (op, v) (by simp)
    -- the step and the plain step
    have key : ∃ t, (∃ s', axStep c op s = (t, .blocked s') ∧ axStep c (plain (op, v)) s = (t, .blocked s')) ∨
        (∃ y y' s', axStep c op s = (t, endWith y s') ∧ axStep c (plain (op, v)) s = (t, endWith y' s') ∧ (∀ e, y' = .error e → ∃ n, e = .axiProtocol n) ∧
          AxReady s' ∧ (∀ i ∈ s'.cur :: s'.rest, i ∈ s.cur :: s.rest) ∧
          ∃ k' mem', AxMem.run c (AxMem.idle code k mem) t = AxMem.idle code k' mem') := by
      have h0 : AxMem.Serves c (AxMem.idle code k mem) (axStep c op s).1 := by
        rw [List.map_cons, axTry_eq] at hserve
        split at hserve
        · rename_i h; rw [h]; exact ((serves_append c _ _ _).1 hserve).1
        · rename_i h; rw [h]; exact ((serves_append c _ _ _).1 hserve).1
        · rename_i h; rw [h]; exact hserve
      cases v with
      | none =>
        refine ⟨(axStep c op s).1, ?_⟩
        rcases axStep_ok c hc op hq s hs hg code k mem h0 with ⟨s', h1⟩ | ⟨s', h1, h2, h3, h4⟩
        · exact .inl ⟨s', by rw [← h1], by rw [← h1]; rfl⟩
        · exact .inr ⟨_, _, s', by rw [← h1], by rw [← h1]; rfl, fun e he => axOutcome_err he, h2, h4, _, _, h3⟩
      | some e =>
        have hrej := axStep_rejected c hc op e hq s
        have h0' : AxMem.Serves c (AxMem.idle code k mem) (axStep c (.pause (edgesLost op e)) s).1 := by
          rw [hrej] at h0
          rcases pause_cases (edgesLost op e) c s with ⟨t, s', h1⟩ | ⟨t, s', h1⟩ <;> (rw [h1] at h0 ⊢; exact h0)
        have hok := axStep_ok c hc (.pause (edgesLost op e)) trivial s hs hg code k mem h0'
        rcases pause_cases (edgesLost op e) c s with ⟨t, s', h1⟩ | ⟨t, s', h1⟩
        · refine ⟨t, .inr ⟨.error e, .ok [], s', by rw [hrej, h1]; rfl, h1, fun e he => (by cases he), ?_⟩⟩
          rcases hok with ⟨s2, g⟩ | ⟨s2, g1, g2, g3, g4⟩
          · rw [h1] at g; cases g
          · rw [h1] at g1 g3
            have : s2 = s' := by
              have ho : axOutcome c (code k) (.pause (edgesLost op e)) mem = .ok [] := rfl
              rw [ho] at g1
              cases g1; rfl
            subst this
            exact ⟨g2, g4, _, _, g3⟩
        · exact ⟨t, .inl ⟨s', by rw [hrej, h1]; rfl, h1⟩⟩
    obtain ⟨t, ⟨s', h1, h2⟩ | ⟨y, y', s', h1, h2, h3, h4, h5, k', mem', h6⟩⟩ := key
    · rw [List.map_cons, List.map_cons, axTry_eq, axUse_eq, h1, h2]
    · have e1 : axTry c (op :: calls.map Prod.fst) s = (y :: (axTry c (calls.map Prod.fst) s').1, t ++ (axTry c (calls.map Prod.fst) s').2.1, (axTry c (calls.map Prod.fst) s').2.2) := by
        rw [axTry_eq, h1]; cases y <;> rfl
      have e2 := axUse_cons c (plain (op, v)) (calls.map plain) s t y' s' h2 h3
      rw [List.map_cons] at hserve ⊢
      rw [show (op, v).1 = op from rfl] at hserve ⊢
      rw [e1] at hserve ⊢
      rw [List.map_cons, e2]
      simp only at hserve ⊢
      rw [serves_append, h6] at hserve
      rw [ih k' mem' s' h4 (fun i hi => hg i (h5 i hi)) hserve.2]

/-! ### A write whose address does not fit -/

/-- nothing is driven and the program ends with OverflowError, or waits for ever -/
def StillErr (r : Res AxIn AddrOut Unit) (o : AddrOut) : Prop :=
  (∀ q ∈ r.1, q.1 = o) ∧ r.2.sim.out = o ∧ ((∃ s', r.2 = .err .overflowError s') ∨ ∃ s', r.2 = .blocked s')

theorem edges_still (n : Nat) (k : M AxIn AddrOut Unit) (hk : ∀ s, k s = ([], .err .overflowError s)) : ∀ s : Sim AxIn AddrOut, StillErr ((edges n >>= fun _ => k) s) s.out := by
  induction n with
  | zero =>
    intro s
    rw [show ((edges 0 : M AxIn AddrOut Unit) >>= fun _ => k) = k from rfl, hk]
    exact ⟨fun q hq => (by cases hq), rfl, .inl ⟨s, rfl⟩⟩
  | succ n ih =>
    intro s
    rw [edges, bind_assoc]
    obtain ⟨ph, o, pr, cu, rest⟩ := s
    cases rest with
    | nil =>
      rw [bind_run, awaitEdge_nil _ rfl, andThen_blocked]
      exact ⟨fun q hq => (by cases hq), rfl, .inr ⟨_, rfl⟩⟩
    | cons i r =>
      rw [bind_run, awaitEdge_cons _ i r rfl, andThen_ok]
      obtain ⟨h1, h2, h3⟩ := ih ⟨.edge, o, cu, i, r⟩
      refine ⟨fun q hq => ?_, h2, h3⟩
      rcases List.mem_append.1 hq with hq | hq
      · simp at hq; rw [hq]
      · exact h1 q hq

theorem sendWriteAddress_big (c : AxCfg) (a len : Nat) (burst : AxiBurst) (size delay : Nat) (sync : Bool) (ha : 2 ^ c.addrW ≤ a) (s : Sim AxIn AddrOut) :
    StillErr (sendWriteAddress c a len burst size delay sync s) s.out := by
  have e : sendWriteAddress c a len burst size delay sync =
      (edges (delay + if sync then 1 else 0) >>= fun _ => (setAddr c a len size burst >>= fun _ => addrHandshake (·.awready))) := by
    unfold sendWriteAddress
    cases sync with
    | false => simp only [Coro.when, Bool.false_eq_true, if_false, pure_bind, Nat.add_zero]
    | true => simp only [Coro.when, if_true, edges, bind_assoc]
  rw [e]
  refine edges_still _ _ (fun s => ?_) s
  unfold setAddr
  simp only [bind_assoc]
  rw [bind_run, writeInt_big (by omega)]
  rfl

theorem axiWriteRun_big (c : AxCfg) (a : Nat) (data : List Nat) (size : Nat) (burst : AxiBurst) (be : List (Option Nat)) (al dl : Nat) (sync : Bool)
    (ha : 2 ^ c.addrW ≤ a) (s : Sim AxIn (AddrOut × WOut)) :
    let r := axiWriteRun c a data size burst be al dl sync s
    (∀ u s', r.2 ≠ .ok u s') ∧ (∀ q ∈ awTrace r.1, q.1 = s.out.1) ∧
    (∃ v, wTrace r.1 = (sendWriteData c a data burst size dl be sync ⟨s.phase, s.out.2, s.prev, s.cur, s.rest⟩).1 ++ v ∧
      (∀ q ∈ v, q.1 = (sendWriteData c a data burst size dl be sync ⟨s.phase, s.out.2, s.prev, s.cur, s.rest⟩).2.sim.out) ∧
      (∀ s', (sendWriteData c a data burst size dl be sync ⟨s.phase, s.out.2, s.prev, s.cur, s.rest⟩).2 = .blocked s' → v = [])) ∧
    ((∀ e s', (sendWriteData c a data burst size dl be sync ⟨s.phase, s.out.2, s.prev, s.cur, s.rest⟩).2 ≠ .err e s') → ∀ e s', r.2 = .err e s' → e = .overflowError) := by
  intro r
  have gA := sendWriteAddress_good c a data.length size al burst sync
  have gW := sendWriteData_good c a data burst size dl be sync
  obtain ⟨h1, h2, h3⟩ := sendWriteAddress_big c a data.length burst size al sync ha ⟨s.phase, s.out.1, s.prev, s.cur, s.rest⟩
  obtain ⟨u, hu1, hu2, hu3⟩ := combine_left gA gW s
  obtain ⟨v, hv1, hv2, hv3⟩ := combine_right gA gW s
  have hno : ∀ u s', (combine (sendWriteAddress c a data.length burst size al sync) (sendWriteData c a data burst size dl be sync) s).2 ≠ .ok u s' := by
    intro u s' h
    unfold combine at h
    simp only at h
    rcases h3 with ⟨s1, h3⟩ | ⟨s1, h3⟩
    · rw [h3] at h; cases h
    · rw [h3] at h
      generalize (sendWriteData c a data burst size dl be sync ⟨s.phase, s.out.2, s.prev, s.cur, s.rest⟩).2 = x at h
      cases x <;> cases h
  have hr : r = combine (sendWriteAddress c a data.length burst size al sync) (sendWriteData c a data burst size dl be sync) s := by
    have hrr : r = Res.andThen (combine (sendWriteAddress c a data.length burst size al sync) (sendWriteData c a data burst size dl be sync) s) (fun _ => bPhase) := by
      show axiWriteRun c a data size burst be al dl sync s = _
      rw [axiWriteRun_eq, bind_run]
    rw [hrr]
    generalize combine (sendWriteAddress c a data.length burst size al sync) (sendWriteData c a data burst size dl be sync) s = x at hno ⊢
    obtain ⟨t, e⟩ := x
    cases e with
    | ok u s' => exact absurd rfl (hno u s')
    | err e s' => rfl
    | blocked s' => rfl
  rw [hr]
  refine ⟨hno, fun q hq => ?_, ⟨v, hv1, hv2, hv3⟩, fun hw e s' he => ?_⟩
  · change q ∈ (combine _ _ s).1.map _ at hq
    rw [hu1] at hq
    rcases List.mem_append.1 hq with hq | hq
    · exact h1 q hq
    · rw [hu2 q hq, h2]
  · unfold combine at he
    simp only at he
    rcases h3 with ⟨s1, h3⟩ | ⟨s1, h3⟩
    · rw [h3] at he; cases he; rfl
    · rw [h3] at he
      generalize (sendWriteData c a data burst size dl be sync ⟨s.phase, s.out.2, s.prev, s.cur, s.rest⟩).2 = x at he hw
      cases x with
      | ok u s2 => cases he
      | err e2 s2 => exact absurd rfl (hw e2 s2)
      | blocked s2 => cases he

/-! ### OverflowError of writes -/

theorem NoErr.combine {I O P : Type} {e : PyErr} {x : M I O Unit} {y : M I P Unit} (hx : NoErr e x) (hy : NoErr e y) : NoErr e (combine x y) := by
  intro s s' h
  unfold CocotbBus.combine at h
  simp only at h
  have h1 := hx ⟨s.phase, s.out.1, s.prev, s.cur, s.rest⟩
  have h2 := hy ⟨s.phase, s.out.2, s.prev, s.cur, s.rest⟩
  generalize (x ⟨s.phase, s.out.1, s.prev, s.cur, s.rest⟩).2 = a at h h1
  generalize (y ⟨s.phase, s.out.2, s.prev, s.cur, s.rest⟩).2 = b at h h2
  cases a <;> cases b <;> cases h
  all_goals first | exact h1 _ rfl | exact h2 _ rfl

theorem edges_no {I O : Type} {e : PyErr} (n : Nat) : NoErr e (edges n : M I O Unit) := by
  induction n with
  | zero => exact NoErr.pure _
  | succ n ih => exact NoErr.bind NoErr.awaitEdge fun _ => ih

theorem sendBeats_no (c : AxCfg) (dl : Nat) (l : List (Nat × Nat)) (h : ∀ x ∈ l, x.1 < 2 ^ (8 * c.dataBytes) ∧ x.2 < 2 ^ c.dataBytes) : NoErr .overflowError (sendBeats c dl l) := by
  have hw : ∀ f : WOut → WOut, NoErr .overflowError (write f : M AxIn WOut Unit) := fun f => NoErr.write f (by decide)
  induction l with
  | nil => exact NoErr.pure _
  | cons q l ih =>
    obtain ⟨w, st⟩ := q
    obtain ⟨h1, h2⟩ := h (w, st) (by simp)
    exact NoErr.bind (edges_no _) fun _ => NoErr.bind (hw _) fun _ => NoErr.bind (NoErr.writeInt h1 _ (by decide)) fun _ => NoErr.bind (NoErr.writeInt h2 _ (by decide)) fun _ =>
      NoErr.bind (NoErr.when _ fun _ => hw _) fun _ =>
      NoErr.bind (NoErr.loop _ (fun _ => NoErr.bind NoErr.awaitEdge fun _ => NoErr.bind NoErr.inp fun _ => NoErr.pure _) _) fun _ =>
      NoErr.bind (NoErr.when _ fun _ => hw _) fun _ => ih (fun x hx => h x (List.mem_cons_of_mem _ hx))

theorem sendWriteAddress_no (c : AxCfg) (a length size : Nat) (burst : AxiBurst) (al : Nat) (sync : Bool) (h : AddrFits c a length size) (hs : 0 < size) :
    NoErr .overflowError (sendWriteAddress c a length burst size al sync) := by
  obtain ⟨h1, h2⟩ := h
  have hw : ∀ f : AddrOut → AddrOut, NoErr .overflowError (write f : M AxIn AddrOut Unit) := fun f => NoErr.write f (by decide)
  refine NoErr.bind (NoErr.when _ fun _ => NoErr.awaitEdge) fun _ => NoErr.bind (edges_no _) fun _ => NoErr.bind ?_ fun _ => NoErr.bind ?_ fun _ => NoErr.bind NoErr.awaitEdge fun _ => hw _
  · refine NoErr.bind (NoErr.writeInt h1 _ (by decide)) fun _ => NoErr.bind (hw _) fun _ => NoErr.when _ fun hf => ?_
    obtain ⟨g1, g2, g3⟩ := h2 hf
    have hb : burst.code < 2 ^ c.burstW := Nat.lt_of_lt_of_le (by cases burst <;> decide) (Nat.pow_le_pow_right (by decide) g1)
    have hl : bitLength size - 1 < 2 ^ c.sizeW := by rw [show bitLength size - 1 = Nat.log2 size by simp [bitLength, Nat.ne_of_gt hs]]; exact g3
    exact NoErr.bind (NoErr.writeInt hb _ (by decide)) fun _ => NoErr.bind (NoErr.writeInt g2 _ (by decide)) fun _ => NoErr.writeInt hl _ (by decide)
  · exact NoErr.bind (NoErr.readOnly _ (by decide)) fun _ => NoErr.loop _ (fun _ => NoErr.bind NoErr.inp fun _ => NoErr.bind (NoErr.ofExcept (by simp)) fun _ =>
      NoErr.ite (fun _ => NoErr.pure _) (fun _ => NoErr.bind NoErr.awaitEdge fun _ => NoErr.bind (NoErr.readOnly _ (by decide)) fun _ => NoErr.pure _)) _

theorem axiWriteRun_no (c : AxCfg) (a : Nat) (data : List Nat) (size m : Nat) (burst : AxiBurst) (be : List (Option Nat)) (al dl : Nat) (sync : Bool)
    (h : AddrFits c a data.length size) (hs : 0 < size) (hm : 0 < m) (hW : c.dataBytes = size * m) (hd : data ≠ []) : NoErr .overflowError (axiWriteRun c a data size burst be al dl sync) := by
  refine NoErr.bind (NoErr.combine (sendWriteAddress_no c a _ size burst al sync h hs) ?_) fun _ => NoErr.bind (NoErr.loop _ (fun _ => ?_) _) fun r =>
    NoErr.bind NoErr.awaitEdge fun _ => NoErr.when _ fun _ => NoErr.raise (by simp)
  · unfold sendWriteData
    by_cases hbe : be = []
    · subst hbe
      cases data with
      | nil => exact absurd rfl hd
      | cons d l =>
        rw [show axiWriteBeats c.dataBytes size a burst (d :: l) [] = .error .indexError from rfl]
        intro s s' he
        rw [bind_run] at he
        cases he
    · obtain ⟨beats, b1, -, b3⟩ := axiWriteBeats_ok size m a hs hm burst data be hbe
      rw [← hW] at b1 b3
      rw [b1]
      intro s s' he
      rw [bind_run] at he
      exact NoErr.bind (NoErr.when sync fun _ => NoErr.awaitEdge) (fun _ => sendBeats_no c dl beats b3) s s' he
  · refine NoErr.bind (NoErr.readOnly _ (by decide)) fun _ => NoErr.bind NoErr.inp fun i => NoErr.ite (fun _ => ?_) (fun _ => NoErr.bind NoErr.awaitEdge fun _ => NoErr.pure _)
    refine NoErr.bind (NoErr.ofExcept ?_) fun r => NoErr.pure _
    unfold axiResp; split
    · split <;> simp
    · simp

end CocotbBus
