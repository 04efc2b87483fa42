import Verif.Model.MmHw
import Verif.Spec.MmHw
import Verif.Proof.MmUse
import Verif.Proof.MmLoop
import Verif.Proof.Cancel

/-! # The memory-mapped test -/

namespace CocotbBus
open Spec Coro

theorem hw_drives_append (words : Nat) (a b : List (MmOut × MmIn)) (i : MmIn) : ∀ d : MmHw,
    MmHw.Drives words d (a ++ b) i → ∀ j, (b = [] → j = i) → (∀ q ∈ b.head?, j = q.2) → MmHw.Drives words d a j ∧ MmHw.Drives words (d.run words a) b i := by
  induction a with
  | nil =>
    intro d h j h1 h2
    refine ⟨?_, h⟩
    cases b with
    | nil => rw [h1 rfl]; exact h
    | cons q t => rw [h2 q (by simp)]; exact h.1
  | cons q a ih =>
    intro d h j h1 h2
    obtain ⟨i1, i2⟩ := ih _ h.2 j h1 h2
    exact ⟨⟨h.1, i1⟩, i2⟩

theorem hw_idle (words : Nat) (d : MmHw) (o : MmOut) (hr : o.read ≠ .one) (hw : o.write ≠ .one) : d.step words o = d := by
  obtain ⟨m, rd, v⟩ := d
  simp [MmHw.step, hr, hw]

theorem hw_idles (words : Nat) (t : List (MmOut × MmIn)) : ∀ d : MmHw, (∀ q ∈ t, q.1.read ≠ .one ∧ q.1.write ≠ .one) → d.run words t = d := by
  induction t with
  | nil => intro d _; rfl
  | cons q t ih =>
    intro d h
    rw [MmHw.run, hw_idle words d q.1 (h q (by simp)).1 (h q (by simp)).2]
    exact ih d (fun q hq => h q (by simp [hq]))

theorem mmReadData_now (c : MmCfg) (s : Sim MmIn MmOut) (hs : s.phase ≠ .ro) (h : s.cur.readdatavalid = .one) :
    mmReadData c s = ([], .ok s.cur.readdata { s with phase := .ro, out := { s.out with busy := false } }) := by
  unfold mmReadData
  cases c.hasRdv with
  | false =>
    simp only [Bool.false_eq_true, if_false]
    rw [bind_readOnly _ _ _ hs]
    rfl
  | true =>
    simp only [if_true]
    rw [bind_run, loop_unfold _ rdvBody_consumes, bind_run, rdvBody_run _ hs, h]
    rfl

/-! ### the first inputs are those of the state -/

def sawFirst {I O α : Type} (r : Res I O α) : I := (r.1.head?.map Prod.snd).getD r.2.sim.cur

theorem sawFirst_bind {I O α β : Type} (r : Res I O α) (f : α → M I O β) (hf : ∀ a s, r.2 = .ok a s → sawFirst (f a s) = s.cur) :
    sawFirst (r.andThen f) = sawFirst r := by
  obtain ⟨t, e⟩ := r
  cases e with
  | ok a s =>
    rw [andThen_ok]
    cases t with
    | nil => exact hf a s rfl
    | cons q t => rfl
  | err e s => rfl
  | blocked s => rfl

theorem sawFirst_op {α : Type} (b : Bool) (e : PyErr) (k : Unit → M MmIn MmOut α) (s : Sim MmIn MmOut) :
    sawFirst ((Coro.when b (raise e) >>= fun _ => mmAcquire >>= fun _ => awaitEdge >>= k) s) = s.cur := by
  cases b with
  | true => rfl
  | false =>
    simp only [Coro.when, Bool.false_eq_true, if_false, pure_bind]
    rw [bind_run, mmAcquire_run]
    cases hb : s.out.busy with
    | true => rfl
    | false =>
      simp only [Bool.false_eq_true, if_false]
      rw [andThen_ok]
      obtain ⟨ph, out, prev, cur, rest⟩ := s
      cases rest with
      | nil => rw [bind_awaitEdge_nil _ _ rfl]; rfl
      | cons i r => rw [bind_awaitEdge_cons _ _ i r rfl]; rfl

theorem mmStep_saw (c : MmCfg) (op : MmOp) (s : Sim MmIn MmOut) : sawFirst (mmStep c op s) = s.cur := by
  have hp : ∀ {α β : Type} (r : Res MmIn MmOut α) (g : α → β), sawFirst (r.andThen (fun a => pure (g a))) = sawFirst r :=
    fun r g => sawFirst_bind r _ (fun a s _ => rfl)
  cases op with
  | write a v =>
    show sawFirst (Res.andThen (mmWrite c a v s) (fun _ => pure none)) = _
    rw [hp (mmWrite c a v s) (fun _ => none)]
    exact sawFirst_op _ _ _ s
  | read a =>
    show sawFirst (Res.andThen (mmRead c a true s) (fun d => pure (some d))) = _
    rw [hp (mmRead c a true s) some]
    exact sawFirst_op _ _ _ s
  | pause n =>
    show sawFirst (Res.andThen ((edges n : M MmIn MmOut Unit) s) (fun _ => pure none)) = _
    rw [hp ((edges n : M MmIn MmOut Unit) s) (fun _ => none)]
    cases n with
    | zero => rfl
    | succ n =>
      obtain ⟨ph, out, prev, cur, rest⟩ := s
      unfold edges
      cases rest with
      | nil => rw [bind_awaitEdge_nil _ _ rfl]; rfl
      | cons i r => rw [bind_awaitEdge_cons _ _ i r rfl]; rfl

theorem mmUse_saw (c : MmCfg) (ops : List MmOp) : ∀ s : Sim MmIn MmOut, sawFirst (mmUse c ops s).2 = s.cur := by
  induction ops with
  | nil => intro s; rfl
  | cons op ops ih =>
    intro s
    have h := mmStep_saw c op s
    unfold mmUse
    cases hr : mmStep c op s with
    | mk t e =>
      rw [hr] at h
      cases e with
      | ok d s' =>
        cases t with
        | nil => exact (ih s').trans h
        | cons q t => exact h
      | err e s' => exact h
      | blocked s' => exact h

/-- the pins in the state, and what is left of the condition -/
theorem hw_split (words : Nat) (c : MmCfg) (ops : List MmOp) (d : MmHw) (t : List (MmOut × MmIn)) (s : Sim MmIn MmOut)
    (h : MmHw.Drives words d (t ++ (mmUse c ops s).2.1) (mmUse c ops s).2.2.sim.cur) :
    MmHw.Drives words d t s.cur ∧ MmHw.Drives words (d.run words t) (mmUse c ops s).2.1 (mmUse c ops s).2.2.sim.cur := by
  have hs := mmUse_saw c ops s
  refine hw_drives_append words t _ _ d h s.cur ?_ ?_
  · intro he
    rw [← hs, sawFirst, he]
    rfl
  · intro q hq
    rw [← hs, sawFirst, Option.mem_def.1 hq]
    rfl

/-! ### the operations -/

theorem hw_pins (words : Nat) (t : List (MmOut × MmIn)) (i : MmIn) : ∀ d : MmHw, MmHw.Drives words d t i →
    i.readdata = (d.run words t).readdata ∧ i.readdatavalid = Logic.ofBool (d.run words t).rdv := by
  induction t with
  | nil => exact fun d h => h
  | cons q t ih => exact fun d h => ih _ h.2

/-- the values and the number of edges, for all that follows -/
def HwGood (c : MmCfg) (init : Nat → Option Nat) (ops : List MmOp) (s : Sim MmIn MmOut) : Prop :=
  (∃ l, (mmUse c ops s).1 ++ l = readsOf c.dataW init ops) ∧
  (∀ e s', (mmUse c ops s).2.2 ≠ .err e s') ∧
  ((mmUse c ops s).2.2.isOk = true → (mmUse c ops s).1 = readsOf c.dataW init ops) ∧
  (edgesFor 0 ops ≤ s.rest.length → (mmUse c ops s).2.2.isOk = true)

theorem hwGood_blocked (c : MmCfg) (init : Nat → Option Nat) (op : MmOp) (ops : List MmOp) (s : Sim MmIn MmOut) (t : List (MmOut × MmIn)) (s' : Sim MmIn MmOut)
    (h : mmStep c op s = (t, .blocked s')) (hn : s.rest.length < edgesFor 0 [op]) : HwGood c init (op :: ops) s := by
  have he : edgesFor 0 [op] ≤ edgesFor 0 (op :: ops) := by cases op <;> simp [edgesFor]
  unfold HwGood
  rw [mmUse, h]
  exact ⟨⟨_, rfl⟩, fun e s' h => (by cases h), fun h => (by cases h), fun h => absurd h (by omega)⟩

theorem hwGood_ok (c : MmCfg) (init init' : Nat → Option Nat) (op : MmOp) (ops : List MmOp) (s : Sim MmIn MmOut) (t : List (MmOut × MmIn)) (d : Option LogicArray)
    (s' : Sim MmIn MmOut) (h : mmStep c op s = (t, .ok d s')) (hr : readsOf c.dataW init (op :: ops) = d.toList ++ readsOf c.dataW init' ops)
    (hn : s.rest.length ≤ edgesFor 0 [op] + s'.rest.length) (hi : HwGood c init' ops s') : HwGood c init (op :: ops) s := by
  have he : edgesFor 0 (op :: ops) = edgesFor 0 [op] + edgesFor 0 ops := by cases op <;> simp [edgesFor]
  obtain ⟨⟨l, h1⟩, h2, h3, h4⟩ := hi
  unfold HwGood
  rw [mmUse, h, hr]
  refine ⟨⟨l, ?_⟩, h2, ?_, ?_⟩
  · simp only
    rw [List.append_assoc, h1]
  · intro ho
    simp only
    rw [h3 ho]
  · intro hle
    exact h4 (by omega)

theorem read_saw (c : MmCfg) (a : Nat) (ops : List MmOp) (s : Sim MmIn MmOut) (i j : MmIn) (r : List MmIn)
    (h : mmRead c a true s = Res.andThen ([({ s.out with busy := true }, s.cur), (rdReq c a s.out, i)], .ok () ⟨.edge, rdWait c a s.out, i, j, r⟩)
      (fun _ => mmReadData c)) :
    ∃ u e, (mmUse c (.read a :: ops) s).2 = ([({ s.out with busy := true }, s.cur), (rdReq c a s.out, i)] ++ u, e) ∧ sawFirst (u, e) = j := by
  have hst : mmStep c (.read a) s = Res.andThen (mmRead c a true s) (fun d => pure (some d)) := rfl
  rw [h, andThen_ok] at hst
  have hg := (mmReadData_good c ⟨.edge, rdWait c a s.out, i, j, r⟩).1
  rw [mmUse, hst]
  cases hr : mmReadData c ⟨.edge, rdWait c a s.out, i, j, r⟩ with
  | mk t e =>
    rw [hr] at hg
    cases e with
    | ok x s' =>
      refine ⟨t ++ (mmUse c ops s').2.1, (mmUse c ops s').2.2, ?_, ?_⟩
      · simp [Res.andThen, pure_run]
      · cases t with
        | nil => exact (mmUse_saw c ops s').trans (List.cons.inj hg).1.symm
        | cons q t => exact (List.cons.inj hg).1.symm
    | err x s' =>
      refine ⟨t, .err x s', rfl, ?_⟩
      cases t <;> exact (List.cons.inj hg).1.symm
    | blocked s' =>
      refine ⟨t, .blocked s', rfl, ?_⟩
      cases t <;> exact (List.cons.inj hg).1.symm

theorem mmHw_good (words : Nat) (c : MmCfg) (hr : c.hasRead = true) (hw : c.hasWrite = true) (ops : List MmOp) :
    ∀ (init : Nat → Option Nat) (d : MmHw) (s : Sim MmIn MmOut),
      (∀ op ∈ ops, OpOk c op ∧ InMemory words op) → MmReady c s.out → (c.hasWait = true → ∀ i ∈ s.rest, i.waitrequest = .zero) →
      Spec.MmHw.Holds words c.dataW d init →
      MmHw.Drives words d (mmUse c ops s).2.1 (mmUse c ops s).2.2.sim.cur → HwGood c init ops s := by
  induction ops with
  | nil =>
    intro init d s _ _ _ _ _
    exact ⟨⟨[], rfl⟩, fun e s' h => (by cases h), fun _ => rfl, fun _ => rfl⟩
  | cons op ops ih =>
    intro init d s hops hrdy hwait hmem hdr
    have hop := hops op (by simp)
    have hops' := fun o ho => hops o (List.mem_cons_of_mem op ho)
    have hrz := hrdy.1.1 hr
    have hwz := hrdy.1.2.1 hw
    cases op with
    | write a v =>
      have hst : mmStep c (.write a v) s = Res.andThen (mmWrite c a v s) (fun _ => pure none) := rfl
      rcases mmWrite_run c a v hw hop.1.2.1 hop.1.2.2 s hrdy.2 hwait with ⟨s', h1, h2⟩ | ⟨t, s', h1, h2⟩ | ⟨i, j, r, h1, h2⟩
      · rw [h1] at hst
        exact hwGood_blocked c init _ ops s _ s' hst (by simp [edgesFor, h2])
      · rw [h1] at hst
        exact hwGood_blocked c init _ ops s _ s' hst (by simp [edgesFor, h2])
      · rw [h2] at hst
        have hst' : mmStep c (.write a v) s = ([({ s.out with busy := true }, s.cur), (wrReq c a v s.out, i)], .ok none ⟨.edge, wrDone c a v s.out, i, j, r⟩) := hst
        rw [mmUse, hst'] at hdr
        have hdr := hw_split words c ops d [({ s.out with busy := true }, s.cur), (wrReq c a v s.out, i)] _ hdr
        refine hwGood_ok c init (fun b => if b = a then some v else init b) _ ops s _ none _ hst' rfl (by simp [edgesFor, h1]; omega) ?_
        refine ih _ _ _ hops' (wrDone_ready c a v s.out hrdy.1) (fun h i hi => hwait h i (by rw [h1]; simp [hi])) ?_ hdr.2
        intro b hb
        rw [MmHw.run, hw_idle words d _ (by rw [hrz]; decide) (by rw [hwz]; decide)]
        simp only [MmHw.run, MmHw.step, wrReq, mmSelect, isResolvable_natToBits, bitsToNat_natToBits, Nat.mod_eq_of_lt hop.1.2.1]
        by_cases hab : a = b
        · subst hab; simp [hb, memWordBits]
        · simp [hab, Ne.symm hab, hmem b hb]
    | read a =>
      have hst : mmStep c (.read a) s = Res.andThen (mmRead c a true s) (fun d => pure (some d)) := rfl
      rcases mmRead_run c a hr hop.1.2 s hrdy.2 hwait with ⟨t, s', h1, h2⟩ | ⟨i, j, r, h1, h2⟩
      · rw [h1] at hst
        exact hwGood_blocked c init _ ops s _ s' hst (by simp [edgesFor]; omega)
      · have hq : (d.run words [({ s.out with busy := true }, s.cur), (rdReq c a s.out, i)]).mem = d.mem ∧
            (d.run words [({ s.out with busy := true }, s.cur), (rdReq c a s.out, i)]).readdata = d.mem a ∧
            (d.run words [({ s.out with busy := true }, s.cur), (rdReq c a s.out, i)]).rdv = true := by
          rw [MmHw.run, hw_idle words d _ (by rw [hrz]; decide) (by rw [hwz]; decide)]
          have hin : a < words := hop.2
          refine ⟨?_, ?_, ?_⟩
          · funext b; simp [MmHw.run, MmHw.step, rdReq, mmSelect, hwz]
          · simp [MmHw.run, MmHw.step, rdReq, mmSelect, bitsToNat_natToBits, Nat.mod_eq_of_lt hop.1.2, hin]
          · simp [MmHw.run, MmHw.step, rdReq, mmSelect]
        have hj : j.readdata = d.mem a ∧ j.readdatavalid = .one := by
          obtain ⟨u, e, hu, hsaw⟩ := read_saw c a ops s i j r h2
          rw [hu] at hdr
          have := hw_drives_append words _ u _ d hdr j (fun he => by rw [← hsaw, sawFirst, he]; rfl) (fun q hq => by rw [← hsaw, sawFirst, Option.mem_def.1 hq]; rfl)
          obtain ⟨p1, p2⟩ := hw_pins words _ _ _ this.1
          exact ⟨p1.trans hq.2.1, p2.trans (by rw [hq.2.2]; rfl)⟩
        rw [h2, andThen_ok, mmReadData_now c _ (by simp) hj.2] at hst
        have hst' : mmStep c (.read a) s = ([({ s.out with busy := true }, s.cur), (rdReq c a s.out, i)],
            .ok (some j.readdata) ⟨.ro, { rdWait c a s.out with busy := false }, i, j, r⟩) := hst
        rw [mmUse, hst'] at hdr
        have hdr := hw_split words c ops d [({ s.out with busy := true }, s.cur), (rdReq c a s.out, i)] _ hdr
        refine hwGood_ok c init init _ ops s _ _ _ hst' ?_ (by simp [edgesFor, h1]; omega) ?_
        · rw [hj.1, hmem a hop.2]
          simp only [readsOf, Option.toList, List.singleton_append]
          cases init a <;> rfl
        · exact ih _ _ _ hops' ⟨rdWait_quiet c a s.out hrdy.1, rfl⟩ (fun h i hi => hwait h i (by rw [h1]; simp [hi])) (by unfold Spec.MmHw.Holds; rw [hq.1]; exact hmem) hdr.2
    | pause n =>
      have hst : mmStep c (.pause n) s = Res.andThen ((edges n : M MmIn MmOut Unit) s) (fun _ => pure none) := rfl
      rw [edges_run] at hst
      by_cases hle : n ≤ s.rest.length
      · rw [if_pos hle] at hst
        have hst' : mmStep c (.pause n) s = ((sampled n s).map (fun i => (s.out, i)), .ok none (advance n s)) := hst.trans (by simp [Res.andThen, pure_run])
        rw [mmUse, hst'] at hdr
        have hdr := hw_split words c ops d _ _ hdr
        refine hwGood_ok c init init _ ops s _ none _ hst' rfl (by simp [edgesFor, advance_rest]; omega) ?_
        refine ih _ _ _ hops' (by rw [advance_out]; exact hrdy) (fun h i hi => hwait h i (List.mem_of_mem_drop (by rw [← advance_rest]; exact hi))) ?_ hdr.2
        rw [hw_idles words _ d]
        · exact hmem
        · intro q hq
          obtain ⟨i, -, rfl⟩ := List.mem_map.1 hq
          exact ⟨by rw [hrz]; decide, by rw [hwz]; decide⟩
      · rw [if_neg hle] at hst
        exact hwGood_blocked c init _ ops s _ _ hst (by simp [edgesFor]; omega)

/-! ### the test -/

theorem edgesFor_append (n : Nat) (a b : List MmOp) : edgesFor n (a ++ b) = edgesFor n a + edgesFor n b := by
  induction a with
  | nil => simp [edgesFor]
  | cons op a ih => cases op <;> simp [edgesFor, ih] <;> omega

theorem writes_edges (l : List (Nat × Nat)) : edgesFor 0 (l.flatMap fun x => [.write x.2 x.1, .pause 1]) = 3 * l.length := by
  induction l with
  | nil => rfl
  | cons x l ih => simp [edgesFor, ih]; omega

theorem reads_edges (l : List Nat) : edgesFor 0 (l.flatMap fun a => [.read a, .pause 1]) = 3 * l.length := by
  induction l with
  | nil => rfl
  | cons x l ih => simp [edgesFor, ih]; omega

theorem mmHwTest_edges (values : List Nat) : edgesFor 0 (mmHwTest values) = 6 * values.length := by
  rw [mmHwTest, edgesFor_append, writes_edges, reads_edges]
  simp
  omega

theorem mmHwTest_ok (words : Nat) (c : MmCfg) (hr : c.hasRead = true) (hw : c.hasWrite = true) (values : List Nat) (hv : ∀ v ∈ values, v < 2 ^ c.dataW)
    (hn : values.length ≤ words) (ha : values.length ≤ 2 ^ c.addrW) : ∀ op ∈ mmHwTest values, OpOk c op ∧ InMemory words op := by
  intro op hop
  rcases List.mem_append.1 hop with h | h
  · obtain ⟨⟨v, k⟩, hx, ho⟩ := List.mem_flatMap.1 h
    have hx' := List.mem_zipIdx hx
    have hk : k < values.length := by omega
    rcases List.mem_cons.1 ho with rfl | ho
    · exact ⟨⟨hw, by omega, hv v (by rw [hx'.2.2]; exact List.getElem_mem _)⟩, by show k < words; omega⟩
    · obtain rfl := List.mem_singleton.1 ho
      exact ⟨trivial, trivial⟩
  · obtain ⟨k, hx, ho⟩ := List.mem_flatMap.1 h
    have hk := List.mem_range.1 hx
    rcases List.mem_cons.1 ho with rfl | ho
    · exact ⟨⟨hr, by omega⟩, by show k < words; omega⟩
    · obtain rfl := List.mem_singleton.1 ho
      exact ⟨trivial, trivial⟩

theorem writes_reads (w : Nat) (ops : List MmOp) (values : List Nat) : ∀ (k : Nat) (init : Nat → Option Nat),
    readsOf w init (((values.zipIdx k).flatMap fun x => [.write x.2 x.1, .pause 1]) ++ ops) =
      readsOf w (fun a => if k ≤ a ∧ a < k + values.length then values[a - k]? else init a) ops := by
  induction values with
  | nil =>
    intro k init
    simp only [List.zipIdx_nil, List.flatMap_nil, List.nil_append, List.length_nil]
    congr 1
    funext a
    rw [if_neg (by omega)]
  | cons v l ih =>
    intro k init
    simp only [List.zipIdx_cons, List.flatMap_cons, List.cons_append, List.nil_append, readsOf, ih]
    congr 1
    funext a
    by_cases h : a = k
    · subst h
      rw [if_neg (by omega)]
      simp
    · by_cases h2 : k + 1 ≤ a ∧ a < k + 1 + l.length
      · rw [if_pos h2, if_pos (by simp only [List.length_cons]; omega), show a - k = (a - (k + 1)) + 1 by omega]
        simp
      · rw [if_neg h2, if_neg h, if_neg (by simp only [List.length_cons]; omega)]

theorem reads_reads (w : Nat) (mem : Nat → Option Nat) (l : List Nat) : readsOf w mem (l.flatMap fun a => [.read a, .pause 1]) = l.map (fun a => memWordBits w (mem a)) := by
  induction l with
  | nil => rfl
  | cons a l ih =>
    simp only [List.flatMap_cons, List.cons_append, List.nil_append, readsOf, ih, List.map_cons]
    congr 1

theorem mmHwTest_reads (w : Nat) (init : Nat → Option Nat) (values : List Nat) : readsOf w init (mmHwTest values) = values.map (natToBits w) := by
  rw [mmHwTest, writes_reads, reads_reads]
  apply List.ext_getElem
  · simp
  · intro n h1 h2
    have hn : n < values.length := by simpa using h1
    simp [hn, memWordBits]

end CocotbBus
