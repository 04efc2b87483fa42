import Verif.Spec.AvalonST
import Verif.Proof.DriverBase
import Verif.Proof.Compat

namespace CocotbBus
open Coro Spec

theorem gapM_run {I O : Type} (lower : O → O) (v : Valids) (s : Sim I O) (hs : s.phase ≠ .ro) :
    ∃ s1 : Sim I O, s1 = (if v.isOff then { s with out := lower s.out } else s) ∧
      gapM lower v s = ((sampled (gapStep v).1 s1).map (fun i => (s1.out, i)),
        if (gapStep v).1 ≤ s.rest.length then .ok (gapStep v).2 (advance (gapStep v).1 s1)
        else .blocked (advance (gapStep v).1 s1)) := by
  refine ⟨_, rfl, ?_⟩
  unfold gapM gapStep
  cases h : v.isOff with
  | false => simp [pure_run, sampled, advance]
  | true =>
    simp only [if_true]
    rw [bind_write _ _ _ hs, bind_run, edges_run]
    by_cases hc : v.off ≤ s.rest.length
    · simp [hc, pure_run]
    · simp [hc]

theorem sampled_spec {I O : Type} (n : Nat) (s : Sim I O) :
    s.cur :: s.rest = sampled n s ++ (advance n s).cur :: (advance n s).rest := by
  induction n generalizing s with
  | zero => rfl
  | succ n ih =>
    cases h : s.rest with
    | nil => simp [sampled, advance, h]
    | cons i r =>
      simp only [sampled, advance, h, List.cons_append]
      rw [← ih]

/-- one word, on any schedule: idle records, then the word held, then taken -/
theorem stSend_run (cfg : StCfg) (x : AvVal) (d : BinVal) (hx : createBinary x cfg.width false = .ok d) (sync : Bool) (v : Valids)
    (s : Sim StIn StOut) (hs : s.phase ≠ .ro) :
    ∃ idle : List (StOut × StIn), (∀ r ∈ idle, r.1.valid = .zero) ∧
      ((∃ s', stSend cfg x sync v s = (idle, .blocked s') ∧ s'.out.valid = .zero ∧
          idle.length < (if sync then 1 else 0) + (gapStep v).1) ∨
       (idle.length = (if sync then 1 else 0) + (gapStep v).1 ∧
        ∃ ws : List StIn, (∀ i ∈ ws, cfg.hasReady = true ∧ i.ready ≠ .one) ∧
         ((∃ s', stSend cfg x sync v s = (idle ++ ws.map (fun i => (⟨.one, d.bits⟩, i)), .blocked s') ∧
             s'.out = ⟨.one, d.bits⟩ ∧ s'.rest = []) ∨
          (∃ a s', stSend cfg x sync v s = (idle ++ ws.map (fun i => (⟨.one, d.bits⟩, i)) ++ [(⟨.one, d.bits⟩, a)],
               .ok (gapStep v).2 s') ∧
             (cfg.hasReady = true → a.ready = .one) ∧ s'.out.valid = .zero ∧ s'.phase = .edge)))) := by
  -- after the gap
  have tail : ∀ (t : Sim StIn StOut) (w : Valids), t.phase ≠ .ro →
      ∃ ws : List StIn, (∀ i ∈ ws, cfg.hasReady = true ∧ i.ready ≠ .one) ∧
        ((∃ s', (do
            write (fun o => { o with valid := .one })
            let d ← ofExcept (createBinary x cfg.width false)
            write (fun o => { o with data := d.bits })
            when cfg.hasReady stWaitReady
            awaitEdge
            write (fun _ => { valid := .zero, data := List.replicate cfg.width .x })
            pure w : M StIn StOut Valids) t = (ws.map (fun i => (⟨.one, d.bits⟩, i)), .blocked s') ∧
            s'.out = ⟨.one, d.bits⟩ ∧ s'.rest = []) ∨
         (∃ a s', (do
            write (fun o => { o with valid := .one })
            let d ← ofExcept (createBinary x cfg.width false)
            write (fun o => { o with data := d.bits })
            when cfg.hasReady stWaitReady
            awaitEdge
            write (fun _ => { valid := .zero, data := List.replicate cfg.width .x })
            pure w : M StIn StOut Valids) t = (ws.map (fun i => (⟨.one, d.bits⟩, i)) ++ [(⟨.one, d.bits⟩, a)], .ok w s') ∧
            (cfg.hasReady = true → a.ready = .one) ∧ s'.out.valid = .zero ∧ s'.phase = .edge)) := by
    intro t w ht
    have final : ∀ u : Sim StIn StOut, u.out = ⟨.one, d.bits⟩ → 
        (∃ s', (do awaitEdge; write (fun _ => { valid := .zero, data := List.replicate cfg.width .x }); pure w : M StIn StOut Valids) u
            = ([], .blocked s') ∧ s'.out = ⟨.one, d.bits⟩ ∧ s'.rest = []) ∨
        (∃ s', (do awaitEdge; write (fun _ => { valid := .zero, data := List.replicate cfg.width .x }); pure w : M StIn StOut Valids) u
            = ([(⟨.one, d.bits⟩, u.cur)], .ok w s') ∧ s'.out.valid = .zero ∧ s'.phase = .edge) := by
      intro u hu
      cases hr : u.rest with
      | nil => left; exact ⟨u, by rw [bind_awaitEdge_nil _ _ hr], hu, hr⟩
      | cons i r =>
        right
        refine ⟨_, by rw [bind_awaitEdge_cons _ _ i r hr, bind_write _ _ _ (by simp), pure_run, hu], rfl, rfl⟩
    rw [bind_write _ _ _ ht, hx, bind_ofExcept_ok, bind_write _ _ _ (by exact ht)]
    cases hrdy : cfg.hasReady with
    | false =>
      refine ⟨[], by simp, ?_⟩
      simp only [when, Bool.false_eq_true, if_false]
      rw [bind_pure_run]
      rcases final { t with out := ⟨.one, d.bits⟩ } rfl with ⟨s', a, b, c⟩ | ⟨s', a, b, c⟩
      · left; exact ⟨s', by rw [a]; rfl, b, c⟩
      · right; exact ⟨_, s', by rw [a]; rfl, by simp, b, c⟩
    | true =>
      simp only [when, if_true, stWaitReady]
      rw [bind_run]
      obtain ⟨ws, h1, h2, h3⟩ := waitRO_run (fun i : StIn => .ok (i.ready == .one))
        ({ t with out := ⟨.one, d.bits⟩ } : Sim StIn StOut) ht
      refine ⟨ws, ?_, ?_⟩
      · intro i hi
        have := h2 i hi
        simpa using this
      · rcases h3 with ⟨s', a, b, c, e, f⟩ | ⟨e', s', a, b, c, e, f⟩ | ⟨s', a, b, c, e, f⟩
        · rw [show waitRO (fun i : StIn => .ok (i.ready == .one)) ({ t with out := ⟨.one, d.bits⟩ } : Sim StIn StOut) =
            (ws.map (fun i => (⟨.one, d.bits⟩, i)), .ok () s') by rw [← a, ← h1], andThen_ok]
          rcases final s' b with ⟨s2, a2, b2, c2⟩ | ⟨s2, a2, b2, c2⟩
          · left
            exact ⟨s2, by rw [a2]; simp, b2, c2⟩
          · right
            refine ⟨s'.cur, s2, by rw [a2], fun _ => ?_, b2, c2⟩
            simpa using e
        · cases e
        · left
          rw [show waitRO (fun i : StIn => .ok (i.ready == .one)) ({ t with out := ⟨.one, d.bits⟩ } : Sim StIn StOut) =
            (ws.map (fun i => (⟨.one, d.bits⟩, i)), .blocked s') by rw [← a, ← h1], andThen_blocked]
          exact ⟨s', rfl, b, c⟩
  -- from the gap on
  have mid : ∀ (t : Sim StIn StOut), t.phase ≠ .ro → t.out.valid = .zero →
      ∃ idle : List (StOut × StIn), (∀ r ∈ idle, r.1.valid = .zero) ∧
      ((∃ s', (do
            let v ← gapM lowerValid v
            write (fun o => { o with valid := .one })
            let d ← ofExcept (createBinary x cfg.width false)
            write (fun o => { o with data := d.bits })
            when cfg.hasReady stWaitReady
            awaitEdge
            write (fun _ => { valid := .zero, data := List.replicate cfg.width .x })
            pure v : M StIn StOut Valids) t = (idle, .blocked s') ∧ s'.out.valid = .zero ∧ idle.length < (gapStep v).1) ∨
       (idle.length = (gapStep v).1 ∧
        ∃ ws : List StIn, (∀ i ∈ ws, cfg.hasReady = true ∧ i.ready ≠ .one) ∧
         ((∃ s', (do
            let v ← gapM lowerValid v
            write (fun o => { o with valid := .one })
            let d ← ofExcept (createBinary x cfg.width false)
            write (fun o => { o with data := d.bits })
            when cfg.hasReady stWaitReady
            awaitEdge
            write (fun _ => { valid := .zero, data := List.replicate cfg.width .x })
            pure v : M StIn StOut Valids) t = (idle ++ ws.map (fun i => (⟨.one, d.bits⟩, i)), .blocked s') ∧
             s'.out = ⟨.one, d.bits⟩ ∧ s'.rest = []) ∨
          (∃ a s', (do
            let v ← gapM lowerValid v
            write (fun o => { o with valid := .one })
            let d ← ofExcept (createBinary x cfg.width false)
            write (fun o => { o with data := d.bits })
            when cfg.hasReady stWaitReady
            awaitEdge
            write (fun _ => { valid := .zero, data := List.replicate cfg.width .x })
            pure v : M StIn StOut Valids) t = (idle ++ ws.map (fun i => (⟨.one, d.bits⟩, i)) ++ [(⟨.one, d.bits⟩, a)],
               .ok (gapStep v).2 s') ∧
             (cfg.hasReady = true → a.ready = .one) ∧ s'.out.valid = .zero ∧ s'.phase = .edge)))) := by
    intro t ht hv
    obtain ⟨t1, ht1, hg⟩ := gapM_run lowerValid v t ht
    have hv1 : t1.out.valid = .zero := by rw [ht1]; split <;> simp [lowerValid, hv]
    have hp1 : t1.phase ≠ .ro := by rw [ht1]; split <;> exact ht
    have hr1 : t1.rest = t.rest := by rw [ht1]; split <;> rfl
    refine ⟨(sampled (gapStep v).1 t1).map (fun i => (t1.out, i)), ?_, ?_⟩
    · intro r hr
      obtain ⟨i, -, rfl⟩ := List.mem_map.1 hr
      exact hv1
    · rw [bind_run, hg]
      by_cases hc : (gapStep v).1 ≤ t.rest.length
      · right
        rw [if_pos hc, andThen_ok]
        refine ⟨by rw [List.length_map, sampled_length, hr1]; omega, ?_⟩
        obtain ⟨ws, w1, w2⟩ := tail (advance (gapStep v).1 t1) (gapStep v).2 (advance_phase _ _ hp1)
        refine ⟨ws, w1, ?_⟩
        rcases w2 with ⟨s', a, b, c⟩ | ⟨a', s', a, b, c, e⟩
        · left; exact ⟨s', by rw [a], b, c⟩
        · right; exact ⟨a', s', by rw [a, List.append_assoc], b, c, e⟩
      · left
        rw [if_neg hc, andThen_blocked]
        refine ⟨_, rfl, by rw [advance_out]; exact hv1, ?_⟩
        rw [List.length_map, sampled_length, hr1]; omega
  unfold stSend
  rw [bind_write _ _ _ hs]
  cases sync with
  | false =>
    simp only [when, Bool.false_eq_true, if_false, Nat.zero_add]
    rw [bind_pure_run]
    exact mid _ hs rfl
  | true =>
    simp only [when, if_true]
    cases hr : s.rest with
    | nil =>
      refine ⟨[], by simp, .inl ⟨_, by rw [bind_awaitEdge_nil _ _ rfl], rfl, by simp; omega⟩⟩
    | cons i r =>
      rw [bind_awaitEdge_cons _ _ i r rfl]
      obtain ⟨idle, h1, h2⟩ := mid ({ s with out := lowerValid s.out, phase := .edge, prev := s.cur, cur := i, rest := r })
        (by simp) rfl
      refine ⟨(lowerValid s.out, s.cur) :: idle, ?_, ?_⟩
      · intro x hx
        rcases List.mem_cons.1 hx with rfl | hx
        · rfl
        · exact h1 x hx
      · rcases h2 with ⟨s', a, b, c⟩ | ⟨hl, ws, w1, w2⟩
        · left
          simp only [when] at a
          exact ⟨s', by rw [a], b, by simp; omega⟩
        · right
          refine ⟨by simp; omega, ws, w1, ?_⟩
          rcases w2 with ⟨s', a, b, c⟩ | ⟨a', s', a, b, c, e⟩
          · left
            simp only [when] at a
            exact ⟨s', by rw [a]; rfl, b, c⟩
          · right
            simp only [when] at a
            exact ⟨a', s', by rw [a]; rfl, b, c, e⟩

/-! ### Traces -/

theorem transferred_append (h : Bool) (a b : List (StOut × StIn)) :
    transferred h (a ++ b) = transferred h a ++ transferred h b := by simp [transferred]

theorem transferred_idle (h : Bool) (a : List (StOut × StIn)) (ha : ∀ r ∈ a, r.1.valid = .zero) : transferred h a = [] := by
  rw [transferred, List.map_eq_nil_iff, List.filter_eq_nil_iff]
  intro r hr
  simp [Transfers, ha r hr]

theorem transferred_held (h : Bool) (w : StOut) (ws : List StIn) (hw : ∀ i ∈ ws, h = true ∧ i.ready ≠ .one) :
    transferred h (ws.map (fun i => (w, i))) = [] := by
  rw [transferred, List.map_eq_nil_iff, List.filter_eq_nil_iff]
  intro r hr
  obtain ⟨i, hi, rfl⟩ := List.mem_map.1 hr
  simp [Transfers, hw i hi]

theorem transferred_taken (h : Bool) (d : LogicArray) (a : StIn) (ha : h = true → a.ready = .one) :
    transferred h [(⟨.one, d⟩, a)] = [d] := by
  have : Transfers h (⟨.one, d⟩, a) := ⟨rfl, ha⟩
  simp [transferred, this]

theorem idleBefore_idle (h : Bool) (a : List (StOut × StIn)) (ha : ∀ r ∈ a, r.1.valid = .zero) (k : Nat) (t : List (StOut × StIn)) :
    idleBefore h k (a ++ t) = idleBefore h (k + a.length) t := by
  induction a generalizing k with
  | nil => simp
  | cons r a ih =>
    have hr := ha r (by simp)
    rw [List.cons_append, idleBefore, if_neg (by simp [Transfers, hr]), if_neg (by simp [hr]), ih (fun x hx => ha x (by simp [hx]))]
    simp only [List.length_cons]
    congr 1; omega

theorem idleBefore_held (h : Bool) (d : LogicArray) (ws : List StIn) (hw : ∀ i ∈ ws, h = true ∧ i.ready ≠ .one) (k : Nat)
    (t : List (StOut × StIn)) :
    idleBefore h k (ws.map (fun i => ((⟨.one, d⟩ : StOut), i)) ++ t) = idleBefore h k t := by
  induction ws with
  | nil => rfl
  | cons i ws ih =>
    have hi := hw i (by simp)
    rw [List.map_cons, List.cons_append, idleBefore, if_neg (by simp [Transfers, hi]), if_pos rfl, ih (fun x hx => hw x (by simp [hx]))]

theorem idleBefore_taken (h : Bool) (d : LogicArray) (a : StIn) (ha : h = true → a.ready = .one) (k : Nat) (t : List (StOut × StIn)) :
    idleBefore h k ((⟨.one, d⟩, a) :: t) = k :: idleBefore h 0 t := by
  rw [idleBefore, if_pos ⟨rfl, ha⟩]

theorem holds_idle (h : Bool) (a t : List (StOut × StIn)) (ha : ∀ r ∈ a, r.1.valid = .zero) (ht : HoldsUntilTaken h t) :
    HoldsUntilTaken h (a ++ t) := by
  induction a with
  | nil => exact ht
  | cons r a ih =>
    have hr := ha r (by simp)
    have := ih (fun x hx => ha x (by simp [hx]))
    rw [List.cons_append]
    revert this
    cases a ++ t with
    | nil => intro _; trivial
    | cons b u => intro this; exact ⟨fun hv => by simp [hr] at hv, this⟩

theorem holds_taken (h : Bool) (r : StOut × StIn) (t : List (StOut × StIn)) (hr : Transfers h r) (ht : HoldsUntilTaken h t) :
    HoldsUntilTaken h (r :: t) := by
  cases t with
  | nil => trivial
  | cons b u => exact ⟨fun _ hn => absurd hr hn, ht⟩

theorem holds_held (h : Bool) (w : StOut) (ws : List StIn) (a : StIn) (t : List (StOut × StIn))
    (ht : HoldsUntilTaken h ((w, a) :: t)) : HoldsUntilTaken h (ws.map (fun i => (w, i)) ++ (w, a) :: t) := by
  induction ws with
  | nil => exact ht
  | cons i ws ih =>
    rw [List.map_cons, List.cons_append]
    cases ws with
    | nil => exact ⟨fun _ _ => rfl, ih⟩
    | cons j ws => exact ⟨fun _ _ => rfl, ih⟩

/-- the records with valid not 1 -/
def idleRecs (t : List (StOut × StIn)) : List (StOut × StIn) := t.filter (fun r => r.1.valid ≠ .one)

theorem idleRecs_append (a b : List (StOut × StIn)) : idleRecs (a ++ b) = idleRecs a ++ idleRecs b := by simp [idleRecs]

theorem idleRecs_offered (d : LogicArray) (ws : List StIn) : idleRecs (ws.map (fun i => ((⟨.one, d⟩ : StOut), i))) = [] := by
  rw [idleRecs, List.filter_eq_nil_iff]
  intro r hr
  obtain ⟨i, -, rfl⟩ := List.mem_map.1 hr
  simp

/-- an edge with ready 1 transfers a word or is idle -/
theorem ready_count (h : Bool) (t : List (StOut × StIn)) :
    (t.filter (fun r => CanTake h r.2)).length ≤ (idleRecs t).length + (transferred h t).length := by
  induction t with
  | nil => simp [idleRecs, transferred]
  | cons r t ih =>
    simp only [idleRecs, transferred, List.length_map, List.filter_cons, decide_eq_true_eq] at ih ⊢
    by_cases h1 : r.1.valid = .one <;> by_cases h2 : CanTake h r.2
    · have : Transfers h r := ⟨h1, h2⟩
      rw [if_pos h2, if_neg (by simpa using h1), if_pos this]
      simp only [List.length_cons]; omega
    · rw [if_neg h2, if_neg (by simpa using h1)]
      split
      · simp only [List.length_cons]; omega
      · exact ih
    all_goals
      rw [if_pos h1]
      simp only [List.length_cons]
      split <;> split <;> (try simp only [List.length_cons]) <;> omega

theorem Good.gapM {I O : Type} (f : O → O) (v : Valids) : Good (gapM f v : M I O Valids) :=
  Good.ite (Good.bind (Good.write f) (fun _ => Good.bind (Good.edges _) (fun _ => Good.pure _))) (Good.pure _)

theorem Good.stSend (cfg : StCfg) (x : AvVal) (sync : Bool) (v : Valids) : Good (stSend cfg x sync v) :=
  Good.bind (Good.write _) fun _ => Good.bind (Good.when _ Good.awaitEdge) fun _ => Good.bind (Good.gapM _ _) fun _ =>
  Good.bind (Good.write _) fun _ => Good.bind (Good.ofExcept _) fun _ => Good.bind (Good.write _) fun _ =>
  Good.bind (Good.when _ (Good.waitRO _)) fun _ => Good.bind Good.awaitEdge fun _ => Good.bind (Good.write _) fun _ => Good.pure _

theorem Good.stSendAll (cfg : StCfg) (l : List (AvVal × Bool)) : ∀ v, Good (stSendAll cfg l v) := by
  induction l with
  | nil => exact fun v => Good.pure v
  | cons p l ih => exact fun v => Good.bind (Good.stSend cfg _ _ _) (fun v => ih v)

/-- a sequence of sends on any schedule -/
theorem stSendAll_run (cfg : StCfg) (items : List ((AvVal × Bool) × BinVal))
    (hx : ∀ p ∈ items, createBinary p.1.1 cfg.width false = .ok p.2) : ∀ (v : Valids) (s : Sim StIn StOut), s.phase ≠ .ro →
    ∃ k ≤ items.length,
      transferred cfg.hasReady (stSendAll cfg (items.map Prod.fst) v s).1 = (items.take k).map (fun p => p.2.bits) ∧
      idleBefore cfg.hasReady 0 (stSendAll cfg (items.map Prod.fst) v s).1 =
        (((gaps items.length v).zip items).map (fun q => q.1 + syncEdges q.2.1.2)).take k ∧
      HoldsUntilTaken cfg.hasReady (withPending (stSendAll cfg (items.map Prod.fst) v s)) ∧
      (idleRecs (stSendAll cfg (items.map Prod.fst) v s).1).length ≤
        (((gaps items.length v).zip items).map (fun q => q.1 + syncEdges q.2.1.2)).sum ∧
      ((k = items.length ∧ ∃ v' s', (stSendAll cfg (items.map Prod.fst) v s).2 = .ok v' s' ∧
          (s'.out.valid = .zero ∨ items = [])) ∨
       (k < items.length ∧ ∃ s', (stSendAll cfg (items.map Prod.fst) v s).2 = .blocked s')) := by
  induction items with
  | nil => intro v s _; exact ⟨0, by simp, rfl, rfl, trivial, by simp [stSendAll, pure_run, idleRecs], .inl ⟨rfl, v, s, rfl, .inr rfl⟩⟩
  | cons p r ih =>
    intro v s hs
    obtain ⟨⟨x, sync⟩, d⟩ := p
    have hd : createBinary x cfg.width false = .ok d := hx ((x, sync), d) (by simp)
    obtain ⟨idle, hidle, hrest⟩ := stSend_run cfg x d hd sync v s hs
    have hih := ih (fun q hq => hx q (by simp [hq]))
    simp only [List.map_cons, stSendAll, bind_run]
    rcases hrest with ⟨s', a, b, hl⟩ | ⟨hl, ws, hws, ⟨s', a, b, -⟩ | ⟨t, s', a, ht, b, c⟩⟩
    · rw [a, andThen_blocked]
      refine ⟨0, by simp, by simp [transferred_idle _ _ hidle], ?_, ?_, ?_, .inr ⟨by simp, s', rfl⟩⟩
      · have := idleBefore_idle cfg.hasReady idle hidle 0 []
        rw [List.append_nil] at this
        rw [this]; rfl
      · exact holds_idle _ _ _ hidle trivial
      · have := List.length_filter_le (fun r : StOut × StIn => r.1.valid ≠ .one) idle
        simp only [List.length_cons, gaps, List.zip_cons_cons, List.map_cons, List.sum_cons, syncEdges, idleRecs]
        omega
    · rw [a, andThen_blocked]
      refine ⟨0, by simp, by simp [transferred_append, transferred_idle _ _ hidle, transferred_held _ _ _ hws], ?_, ?_, ?_,
        .inr ⟨by simp, s', rfl⟩⟩
      · rw [idleBefore_idle _ _ hidle]
        have := idleBefore_held cfg.hasReady d.bits ws hws (0 + idle.length) []
        rw [List.append_nil] at this
        rw [this]; rfl
      · simp only [withPending, List.append_assoc]
        refine holds_idle _ _ _ hidle ?_
        simp only [End.sim, b]
        exact holds_held _ _ _ _ _ trivial
      · have := List.length_filter_le (fun r : StOut × StIn => r.1.valid ≠ .one) idle
        rw [idleRecs_append, idleRecs_offered]
        simp only [List.length_cons, gaps, List.zip_cons_cons, List.map_cons, List.sum_cons, syncEdges, idleRecs,
          List.length_append, List.length_nil]
        omega
    · rw [a, andThen_ok]
      obtain ⟨k, hk, h1, h2, h3, h5, h4⟩ := hih (gapStep v).2 s' (by simp [c])
      refine ⟨k + 1, by simp; omega, ?_, ?_, ?_, ?_, ?_⟩
      · rw [transferred_append, transferred_append, transferred_append, transferred_idle _ _ hidle, transferred_held _ _ _ hws,
          transferred_taken _ _ _ ht, h1]
        rfl
      · simp only [List.append_assoc]
        rw [idleBefore_idle _ _ hidle, idleBefore_held _ _ _ hws, List.singleton_append, idleBefore_taken _ _ _ ht, h2, hl]
        simp only [List.length_cons, gaps, List.zip_cons_cons, List.map_cons, List.take_succ_cons, syncEdges]
        congr 1; omega
      · simp only [withPending, List.append_assoc, List.singleton_append]
        exact holds_idle _ _ _ hidle (holds_held _ _ _ _ _ (holds_taken _ _ _ ⟨rfl, ht⟩ h3))
      · have := List.length_filter_le (fun r : StOut × StIn => r.1.valid ≠ .one) idle
        rw [idleRecs_append, idleRecs_append, idleRecs_append, idleRecs_offered,
          show idleRecs [((⟨.one, d.bits⟩ : StOut), t)] = [] from rfl]
        simp only [syncEdges] at h5
        simp only [List.length_cons, gaps, List.zip_cons_cons, List.map_cons, List.sum_cons, syncEdges,
          List.length_append, List.length_nil]
        have h6 : (idleRecs idle).length ≤ idle.length := this
        omega
      · rcases h4 with ⟨h4, v', s2, h5, h6⟩ | ⟨h4, s2, h5⟩
        · refine .inl ⟨by simp [h4], v', s2, h5, ?_⟩
          rcases h6 with h6 | rfl
          · exact .inl h6
          · cases h5; exact .inl b
        · exact .inr ⟨by simp; omega, s2, h5⟩

/-! ### Monitor -/

theorem pinValue_array (d : LogicArray) (h : d.length ≠ 1) : pinValue d = .array d := by
  unfold pinValue
  split
  · simp at h
  · rfl

theorem convert_pin (d : LogicArray) (be : Bool) (hr : isResolvable d = true) (hl : d.length ≠ 1) :
    ∃ b, convertBinaryToBytes (pinValue d) be = .ok b ∧ b.length = (d.length + 7) / 8 ∧
      (if be then beVal b else leVal b) = bitsToNat d := by
  have h1 : leVal (natToBytesLE ((d.length + 7) / 8) (bitsToNat d)) = bitsToNat d := by
    rw [leVal_natToBytesLE, Nat.mod_eq_of_lt]
    refine Nat.lt_of_lt_of_le (bitsToNat_lt d) ?_
    rw [show 256 = 2 ^ 8 from rfl, ← Nat.pow_mul]
    exact Nat.pow_le_pow_right (by omega) (by omega)
  rw [pinValue_array d hl]
  simp only [convertBinaryToBytes, toUnsigned, hr, if_true]
  cases be with
  | false => exact ⟨_, rfl, by simp, by simpa using h1⟩
  | true => exact ⟨_, rfl, by simp, by simpa [beVal] using h1⟩

/-- the monitor on a trace whose transferred words are whole bytes -/
theorem stMonitor_bytes (cfg : StCfg) (bs : List Bytes) (t : List (StOut × StIn))
    (h : transferred cfg.hasReady t = bs.map joinBytes) :
    stMonitor cfg t = (bs.map (fun b => if cfg.highFirst then b else b.reverse), none) := by
  induction t generalizing bs with
  | nil =>
    cases bs with
    | nil => rfl
    | cons => simp [transferred] at h
  | cons r t ih =>
    obtain ⟨o, i⟩ := r
    rw [show (o, i) :: t = [(o, i)] ++ t from rfl, transferred_append] at h
    have hiff : stValid cfg o i = true ↔ Transfers cfg.hasReady (o, i) := by
      unfold stValid Transfers
      cases cfg.hasReady <;> simp
    by_cases hv : Transfers cfg.hasReady (o, i)
    · have ht : transferred cfg.hasReady [(o, i)] = [o.data] := by simp [transferred, hv]
      rw [ht] at h
      cases bs with
      | nil => simp at h
      | cons b bs =>
        simp only [List.singleton_append, List.map_cons, List.cons.injEq] at h
        obtain ⟨h1, h2⟩ := h
        have hp : pinValue o.data = .array (joinBytes b) := by
          rw [h1, pinValue_array]
          rw [joinBytes_length]; omega
        simp [stMonitor, hiff.2 hv, hp, convert_joinBytes, ih bs h2]
    · have ht : transferred cfg.hasReady [(o, i)] = [] := by simp [transferred, hv]
      rw [ht, List.nil_append] at h
      have : stValid cfg o i = false := by
        cases hh : stValid cfg o i with
        | false => rfl
        | true => exact absurd (hiff.1 hh) hv
      simp [stMonitor, this, ih bs h]

theorem stMonitor_append (cfg : StCfg) (w : List (StOut × StIn)) : ∀ t : List (StOut × StIn), (stMonitor cfg t).2 = none →
    stMonitor cfg (t ++ w) = ((stMonitor cfg t).1 ++ (stMonitor cfg w).1, (stMonitor cfg w).2) := by
  intro t
  induction t with
  | nil => intro _; rfl
  | cons r t ih =>
    obtain ⟨o', i'⟩ := r
    intro h
    simp only [stMonitor, List.cons_append] at h ⊢
    split
    · rename_i hval
      rw [if_pos hval] at h
      cases hc : convertBinaryToBytes (pinValue o'.data) cfg.highFirst with
      | error e => simp [hc] at h
      | ok b =>
        simp only [hc] at h
        simp [ih h]
    · rename_i hval
      rw [if_neg hval] at h
      exact ih h

end CocotbBus
