import Verif.Proof.AxiParLive
import Verif.Proof.QueueLive
import Verif.Spec.AxiMany

/-! # Calls that take turns -/

namespace CocotbBus
open Spec Coro

variable {I O P α β : Type}

/-! ### Waiting for the turn -/

theorem now_good : Good (now : M I O (Nat × Phase)) := fun s => ⟨rfl, fun s' h => by cases h⟩

theorem resumeIn_good (ph : Phase) : Good (resumeIn ph : M I O Unit) := fun s => ⟨rfl, fun s' h => by cases h⟩

theorem waitUntil_good (t : Moment) : Good (waitUntil t : M I O Unit) := by
  unfold waitUntil
  exact Good.bind now_good (fun m => Good.bind (Good.edges _) (fun _ => Good.bind now_good (fun _ => Good.when _ (resumeIn_good _))))

theorem waitUntil_run (t : Moment) (ht : t.2 ≠ .ro) (s : Sim I O) (hs : s.phase ≠ .ro) :
    ∃ u s', (waitUntil t : M I O Unit) s = (u, .ok () s') ∧ s'.out = s.out ∧ s'.phase ≠ .ro ∧ (∀ q ∈ u, q.1 = s.out) ∧ u.length = s.rest.length - t.1 ∧
      s.cur :: s.rest = u.map Prod.snd ++ s'.cur :: s'.rest := by
  have hgood := waitUntil_good t s
  have hle : s.rest.length - t.1 ≤ s.rest.length := Nat.sub_le _ _
  have he : (waitUntil t : M I O Unit) s = ((sampled (s.rest.length - t.1) s).map (fun i => (s.out, i)), .ok ()
      (if (advance (s.rest.length - t.1) s).rest.length = t.1 ∧ (advance (s.rest.length - t.1) s).phase.rank < t.2.rank then
        { advance (s.rest.length - t.1) s with phase := t.2 } else advance (s.rest.length - t.1) s)) := by
    unfold waitUntil
    rw [bind_silent _ _ s s (s.rest.length, s.phase) rfl, bind_run, edges_run, if_pos hle, andThen_ok,
      bind_silent _ _ (advance (s.rest.length - t.1) s) _ ((advance (s.rest.length - t.1) s).rest.length, (advance (s.rest.length - t.1) s).phase) rfl]
    simp only [Coro.when, decide_eq_true_eq]
    split
    · exact Prod.ext (List.append_nil _) rfl
    · exact Prod.ext (List.append_nil _) rfl
  rw [he] at hgood ⊢
  refine ⟨_, _, rfl, ?_, ?_, ?_, ?_, hgood.1⟩
  · split <;> exact advance_out _ _
  · split
    · exact ht
    · exact advance_phase _ _ hs
  · intro q hq
    obtain ⟨i, _, rfl⟩ := List.mem_map.1 hq
    rfl
  · rw [List.length_map, sampled_length, Nat.min_eq_left hle]

/-! ### Taking turns -/

theorem locked_good (body : α → M I O β) (hb : ∀ x, Good (body x)) (calls : List (α × Moment)) : Good (fun s => (locked body calls s).2) := by
  induction calls with
  | nil => exact fun s => ⟨rfl, fun s' h => by cases h⟩
  | cons x l ih =>
    obtain ⟨x, t⟩ := x
    intro s
    have hg := (Good.bind (waitUntil_good t) (fun _ => hb x)) s
    simp only [locked]
    generalize (waitUntil t >>= fun _ => body x) s = r at hg ⊢
    obtain ⟨u, e⟩ := r
    cases e with
    | ok b s' =>
      obtain ⟨i1, i2⟩ := ih s'
      refine ⟨?_, i2⟩
      have := hg.1
      simp only [End.sim] at this
      rw [this]
      simp only [List.map_append, List.append_assoc]
      rw [i1]
    | err b s' =>
      obtain ⟨i1, i2⟩ := ih s'
      refine ⟨?_, i2⟩
      have := hg.1
      simp only [End.sim] at this
      rw [this]
      simp only [List.map_append, List.append_assoc]
      rw [i1]
    | blocked s' => exact ⟨hg.1, fun s2 h => hg.2 s2 (by injection h with h; rw [h])⟩

theorem records_inputs {x : M I O Unit} (hg : Good x) (s : Sim I O) : (records (x s)).map Prod.snd = (s.cur :: s.rest).dropLast := by
  unfold records
  rw [(hg s).1, List.map_append, List.map_map, List.dropLast_append_of_ne_nil (by simp)]
  simp [Function.comp_def]

theorem records_length {x : M I O Unit} (hg : Good x) (s : Sim I O) : (records (x s)).length = s.rest.length := by
  rw [← List.length_map (f := Prod.snd), records_inputs hg]
  simp

theorem locked_cons (body : α → M I O β) (x : α) (t : Moment) (l : List (α × Moment)) (s : Sim I O) (u : List (O × I)) (b : β) (s' : Sim I O)
    (h : (waitUntil t >>= fun _ => body x) s = (u, .ok b s')) :
    locked body ((x, t) :: l) s = ((.ok b, (s'.rest.length, s'.phase)) :: (locked body l s').1, u ++ (locked body l s').2.1, (locked body l s').2.2) := by
  simp only [locked, h]

theorem locked_cons_err (body : α → M I O β) (x : α) (t : Moment) (l : List (α × Moment)) (s : Sim I O) (u : List (O × I)) (e : PyErr) (s' : Sim I O)
    (h : (waitUntil t >>= fun _ => body x) s = (u, .err e s')) :
    locked body ((x, t) :: l) s = ((.error e, (s'.rest.length, s'.phase)) :: (locked body l s').1, u ++ (locked body l s').2.1, (locked body l s').2.2) := by
  simp only [locked, h]

theorem locked_blocked (body : α → M I O β) (x : α) (t : Moment) (l : List (α × Moment)) (s : Sim I O) (u : List (O × I)) (s' : Sim I O)
    (h : (waitUntil t >>= fun _ => body x) s = (u, .blocked s')) :
    locked body ((x, t) :: l) s = ([], u, .blocked s') := by
  simp only [locked, h]

theorem records_append (u : List (O × I)) (r : Res I O Unit) : records (u ++ r.1, r.2) = u ++ records r := by
  simp [records]

/-- the number of transfers in the first records -/
def cnt (V : Stream I O P) (R : List (O × I)) (n : Nat) : Nat := (V.taken (R.take n)).length

theorem cnt_append_left (V : Stream I O P) (u R : List (O × I)) (n : Nat) (h : n ≤ u.length) : cnt V (u ++ R) n = cnt V u n := by
  unfold cnt
  rw [List.take_append_of_le_length h]

theorem cnt_append_right (V : Stream I O P) (u R : List (O × I)) (n : Nat) (h : u.length ≤ n) : cnt V (u ++ R) n = (V.taken u).length + cnt V R (n - u.length) := by
  unfold cnt
  rw [List.take_append, List.take_of_length_le h, taken_append, List.length_append]

theorem cnt_le (V : Stream I O P) (u : List (O × I)) (n : Nat) : cnt V u n ≤ (V.taken u).length := by
  unfold cnt
  conv => rhs; rw [← List.take_append_drop n u, taken_append, List.length_append]
  omega

theorem cnt_mono (V : Stream I O P) (u : List (O × I)) (n m : Nat) (h : n ≤ m) : cnt V u n ≤ cnt V u m := by
  have := cnt_le V (u.take m) n
  unfold cnt at this ⊢
  rwa [List.take_take, Nat.min_eq_left h] at this

/-- all transfers have been made only at the end, if the last record is one -/
theorem cnt_lt (V : Stream I O P) (u : List (O × I)) (n : Nat) (hn : n < u.length) (hl : ∀ q, u.getLast? = some q → V.xfer q = true) : cnt V u n < (V.taken u).length := by
  have hne : u ≠ [] := by rintro rfl; simp at hn
  have h1 := cnt_mono V u n (u.length - 1) (by omega)
  have h2 : (V.taken u).length = cnt V u (u.length - 1) + 1 := by
    unfold cnt
    conv => lhs; rw [← List.dropLast_concat_getLast hne, taken_append, List.length_append]
    have hx := hl _ (List.getLast?_eq_some_getLast hne)
    rw [List.dropLast_eq_take, taken_cons, hx]
    simp [Stream.taken]
  omega

/-- what is offered after the end of all calls -/
theorem taken_idle_map (V : Stream I O P) (o : O) (ho : V.valid o = false) (l : List I) : V.taken (l.map (fun i => (o, i))) = [] := by
  apply taken_none
  intro q hq
  obtain ⟨i, _, rfl⟩ := List.mem_map.1 hq
  simp [Stream.xfer, ho]

/-- A channel used by calls that take turns. -/
structure Channel (V : Stream I O P) (pl : α → List P) (calls : List (α × Moment)) (L : Nat) (outs : List (Got Unit)) (R : List (O × I)) : Prop where
  /-- what is transferred -/
  sent : V.taken R <+: (calls.map Prod.fst).flatMap pl
  /-- nothing is raised -/
  fine : ∀ (k : Nat) (x : Except PyErr Unit) (t : Moment), outs[k]? = some (x, t) → x = .ok () ∧ t.2 ≠ .ro ∧ t.1 ≤ L
  few : outs.length ≤ calls.length
  /-- a call is through when all it has to transfer has been transferred -/
  ends : ∀ k < calls.length, ∀ n ≤ L, (∃ (x : Except PyErr Unit) (t : Moment), outs[k]? = some (x, t) ∧ L - t.1 ≤ n) ↔ (((calls.take (k + 1)).map Prod.fst).flatMap pl).length ≤ cnt V R n
  /-- nothing is transferred before the call -/
  starts : ∀ (k : Nat) (call : α × Moment), calls[k]? = some call → ∀ n, n ≤ L - call.2.1 → cnt V R n ≤ (((calls.take k).map Prod.fst).flatMap pl).length

theorem channel (V : Stream I O P) (body : α → M I O Unit) (hb : ∀ x, Good (body x)) (pl : α → List P) (Q : O → Prop)
    (hQ : ∀ o, Q o → V.valid o = false) (calls : List (α × Moment)) :
    (∀ x ∈ calls, pl x.1 ≠ [] ∧ x.2.2 ≠ .ro ∧ ∀ s : Sim I O, s.phase ≠ .ro → Q s.out →
      ∃ ns, Runs V (pl x.1) ns (body x.1 s) (fun _ s' => s'.phase ≠ .ro ∧ Q s'.out)) →
    ∀ s : Sim I O, s.phase ≠ .ro → Q s.out →
    Channel V pl calls s.rest.length (locked body calls s).1 (records (locked body calls s).2) := by
  induction calls with
  | nil =>
    intro _ s hs hv0
    have hv := hQ _ hv0
    refine ⟨?_, ?_, Nat.le_refl _, ?_, ?_⟩
    · simp only [locked, records, List.nil_append, End.sim]
      rw [taken_idle_map V _ hv]
      simp
    · intro k x t h
      simp [locked] at h
    · intro k hk
      simp at hk
    · intro k call h
      simp at h
  | cons y l ih =>
    obtain ⟨x, t⟩ := y
    intro hx s hs hv0
    have hv := hQ _ hv0
    obtain ⟨hne, ht, hrun⟩ := hx (x, t) (by simp)
    simp only at hne ht hrun
    have hx' := fun y (hy : y ∈ l) => hx y (by simp [hy])
    obtain ⟨u, s1, w1, w2, w3, w4, w5, w6⟩ := waitUntil_run (O := O) t ht s hs
    obtain ⟨ns, hr⟩ := hrun s1 w3 (by rw [w2]; exact hv0)
    have hgb := hb x s1
    have hu0 : V.taken u = [] := taken_none V u (fun q hq => by simp [Stream.xfer, w4 q hq, hv])
    have hL : s.rest.length = u.length + s1.rest.length := by
      have := congrArg List.length w6
      simp at this
      omega
    have hbind : (waitUntil t >>= fun _ => body x) s = (u ++ (body x s1).1, (body x s1).2) := by rw [bind_run, w1, andThen_ok]
    obtain ⟨k0, hk0, r1, -, -, -, r5⟩ := hr
    rcases r5 with ⟨rfl, -, r6, a, s', r7, r8, r9⟩ | ⟨hlt, s', r7, -⟩
    · -- the first call is through
      rw [List.take_length] at r1
      have hbx : body x s1 = ((body x s1).1, .ok a s') := Prod.ext rfl r7
      generalize htj : (body x s1).1 = tj at *
      have hlock := locked_cons body x t l s (u ++ tj) a s' (by rw [hbind, r7])
      have hgl : s1.rest.length = tj.length + s'.rest.length := by
        have := congrArg List.length hgb.1
        rw [r7] at this
        simp [End.sim] at this
        omega
      have htj0 : tj ≠ [] := by
        intro h
        rw [h] at r1
        exact hne r1.symm
      have htu : V.taken (u ++ tj) = pl x := by rw [taken_append, hu0, r1, List.nil_append]
      have hlast : ∀ q, (u ++ tj).getLast? = some q → V.xfer q = true := by
        intro q hq
        rw [List.getLast?_append, List.getLast?_eq_some_getLast htj0] at hq
        exact r6 q (by rw [List.getLast?_eq_some_getLast htj0]; simpa using hq)
      have hih := ih hx' s' r8 r9
      have hrec : records (locked body ((x, t) :: l) s).2 = (u ++ tj) ++ records (locked body l s').2 := by
        rw [hlock, ← records_append]
      rw [hrec, hlock]
      have hlu : (u ++ tj).length = s.rest.length - s'.rest.length := by simp; omega
      have hpos : 0 < (pl x).length := List.length_pos_iff.2 hne
      refine ⟨?_, ?_, ?_, ?_, ?_⟩
      · rw [taken_append, htu, List.map_cons, List.flatMap_cons]
        exact (List.prefix_append_right_inj _).2 hih.sent
      · intro k x' t' h
        cases k with
        | zero =>
          simp only [List.getElem?_cons_zero, Option.some.injEq, Prod.mk.injEq] at h
          obtain ⟨rfl, rfl⟩ := h
          exact ⟨rfl, r8, by simp only; omega⟩
        | succ k =>
          obtain ⟨h1, h2, h3⟩ := hih.fine k x' t' (by simpa using h)
          exact ⟨h1, h2, by omega⟩
      · simpa using hih.few
      · intro k hk n hn
        cases k with
        | zero =>
          simp only [List.getElem?_cons_zero, Option.some.injEq, Prod.mk.injEq, List.take_succ_cons, List.take_zero, List.map_cons, List.map_nil, List.flatMap_cons,
            List.flatMap_nil, List.append_nil]
          constructor
          · rintro ⟨_, _, ⟨rfl, rfl⟩, h⟩
            rw [cnt_append_right V _ _ n (by rw [hlu]; exact h), htu]
            omega
          · intro h
            refine ⟨_, _, ⟨rfl, rfl⟩, ?_⟩
            apply Nat.le_of_not_lt
            intro hc
            rw [cnt_append_left V _ _ n (by rw [hlu]; exact Nat.le_of_lt hc)] at h
            have := cnt_lt V (u ++ tj) n (by rw [hlu]; exact hc) hlast
            rw [htu] at this
            omega
        | succ k =>
          have hk' : k < l.length := by simpa using hk
          simp only [List.getElem?_cons_succ, List.take_succ_cons, List.map_cons, List.flatMap_cons, List.length_append]
          by_cases hc : (u ++ tj).length ≤ n
          · have hih' := hih.ends k hk' (n - (u ++ tj).length) (by omega)
            rw [cnt_append_right V _ _ n hc, htu]
            constructor
            · rintro ⟨x', t', h1, h2⟩
              have h3 := (hih.fine k x' t' h1).2.2
              have := hih'.1 ⟨x', t', h1, by omega⟩
              omega
            · intro h
              obtain ⟨x', t', h1, h2⟩ := hih'.2 (by omega)
              have h3 := (hih.fine k x' t' h1).2.2
              exact ⟨x', t', h1, by omega⟩
          · have hc' : n ≤ (u ++ tj).length := by omega
            rw [cnt_append_left V _ _ n hc']
            constructor
            · rintro ⟨x', t', h1, h2⟩
              have h3 := (hih.fine k x' t' h1).2.2
              omega
            · intro h
              have h1 := cnt_le V (u ++ tj) n
              rw [htu] at h1
              obtain ⟨y, hy⟩ : ∃ y, l[k]? = some y := ⟨l[k], List.getElem?_eq_getElem hk'⟩
              have h2 : 0 < (((l.take (k + 1)).map Prod.fst).flatMap pl).length := by
                apply List.length_pos_iff.2
                intro h
                have hmem : y ∈ l.take (k + 1) := by
                  apply List.mem_of_getElem? (i := k)
                  rw [List.getElem?_take, if_pos (by omega)]
                  exact hy
                have : pl y.1 = [] := by
                  rw [List.flatMap_eq_nil_iff] at h
                  exact h y.1 (List.mem_map_of_mem hmem)
                exact (hx' y (List.mem_of_getElem? hy)).1 this
              omega
      · intro k call hk n hn
        cases k with
        | zero =>
          simp only [List.getElem?_cons_zero, Option.some.injEq] at hk
          subst hk
          rw [List.append_assoc, cnt_append_left V _ _ n (by rw [w5]; exact hn)]
          have := cnt_le V u n
          rw [hu0] at this
          simpa using this
        | succ k =>
          simp only [List.getElem?_cons_succ] at hk
          simp only [List.take_succ_cons, List.map_cons, List.flatMap_cons, List.length_append]
          by_cases hc : (u ++ tj).length ≤ n
          · have := hih.starts k call hk (n - (u ++ tj).length) (by omega)
            rw [cnt_append_right V _ _ n hc, htu]
            omega
          · rw [cnt_append_left V _ _ n (by omega)]
            have := cnt_le V (u ++ tj) n
            rw [htu] at this
            omega
    · -- it is still waiting
      have hbx : body x s1 = ((body x s1).1, .blocked s') := Prod.ext rfl r7
      generalize htj : (body x s1).1 = tj at *
      have hlock := locked_blocked body x t l s (u ++ tj) s' (by rw [hbind, r7])
      have hrest : s'.rest = [] := hgb.2 s' r7
      have htu : V.taken (u ++ tj) = (pl x).take k0 := by rw [taken_append, hu0, r1, List.nil_append]
      have hrec : records (locked body ((x, t) :: l) s).2 = u ++ tj := by
        rw [hlock]
        simp [records, End.sim, hrest]
      rw [hrec, hlock]
      have htl : (V.taken (u ++ tj)).length < (pl x).length := by
        rw [htu, List.length_take]
        omega
      refine ⟨?_, ?_, Nat.zero_le _, ?_, ?_⟩
      · rw [htu, List.map_cons, List.flatMap_cons]
        exact (List.take_prefix _ _).trans (List.prefix_append _ _)
      · intro k x' t' h
        simp at h
      · intro k hk n hn
        constructor
        · rintro ⟨x', t', h, _⟩
          simp at h
        · intro h
          have := cnt_le V (u ++ tj) n
          simp only [List.take_succ_cons, List.map_cons, List.flatMap_cons, List.length_append] at h
          omega
      · intro k call hk n hn
        cases k with
        | zero =>
          simp only [List.getElem?_cons_zero, Option.some.injEq] at hk
          subst hk
          rw [cnt_append_left V _ _ n (by rw [w5]; exact hn)]
          have := cnt_le V u n
          rw [hu0] at this
          simpa using this
        | succ k =>
          have := cnt_le V (u ++ tj) n
          simp only [List.take_succ_cons, List.map_cons, List.flatMap_cons, List.length_append]
          omega

end CocotbBus
