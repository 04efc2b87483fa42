import Verif.Proof.ScoreboardTwice
import Verif.Proof.ScoreboardAny

/-! # Properties C24–C30: the scoreboard -/

namespace CocotbBus
open Spec
variable {T : Type}

/-! ### Example transactions: Python ints and floats, `1 == 1.0` -/

/-- `(0, n)` is the int n, `(1, n)` the float n.0, `(2, n)` another type whose `str` is that of the int -/
def exOps : TxnOps (Nat × Nat) where
  eq := fun a b => a.2 == b.2
  ty := fun a => a.1
  str := fun a => if a.1 = 1 then toString a.2 ++ ".0" else toString a.2

/-- same-type transactions -/
def exOps2 : TxnOps Nat where
  eq := fun a b => a == b
  ty := fun _ => 0
  str := fun a => toString a

/-! ### C24 -/

/-- C24: one interface, depth 0, `fail_immediately=False`: no exception is raised, the verdict is
success exactly if the received sequence has the expected length and every transaction is
acceptable at its position, and the error counter is the number of mismatching positions plus the
number of surplus transactions. (`Accepts ops true` is "same type and equal".) -/
theorem C24_in_order (ops : TxnOps T) (strict : Bool) (heap : Nat → List T) (mid ref : Nat) (name : Option String)
    (E R : List T) (hE : heap ref = E) :
    let w := ((World.new false heap).addInterface ops mid (busMonitor name) (.list ref) .none 0 strict).1
    (w.receiveAll mid R 0).2 = none ∧
    ((w.receiveAll mid R 0).1.sb.result = .ok () ↔
      R.length = E.length ∧ ∀ i (h1 : i < R.length) (h2 : i < E.length), Accepts ops strict R[i] E[i]) ∧
    (w.receiveAll mid R 0).1.sb.errors = mismatches ops strict R E + (R.length - E.length) := by
  intro w
  obtain ⟨-, a2, a3⟩ := new_addInterface ops false heap mid ref name 0 strict
  obtain ⟨r1, r2⟩ := receiveAll_feed _ mid R 0 w a3
  obtain ⟨sb', f1, f2, f3, f4⟩ := feed_depth0 ops name ref strict R 0 w.sb (by rw [a2])
  rw [f1] at r1 r2
  have hexp : w.sb.expected = [(mid, .list ref)] := by rw [a2]
  have hheap : w.sb.heap ref = E := by rw [a2]; exact hE
  have herr : w.sb.errors = 0 := by rw [a2]
  rw [hheap] at f3 f4
  rw [r1, result_single sb' mid ref (by rw [f2, hexp]), f3, f4, herr, ← mismatches_zero]
  refine ⟨r2, ?_, by omega⟩
  rw [List.drop_eq_nil_iff]
  constructor
  · rintro ⟨h1, h2⟩; exact ⟨by omega, by omega⟩
  · rintro ⟨h1, h2⟩; exact ⟨by omega, by omega⟩

/-- meaning of `mismatches`: the number of positions with an unacceptable transaction -/
theorem C24_mismatches_count (ops : TxnOps T) (strict : Bool) (R E : List T) :
    mismatches ops strict R E = ((R.zip E).filter (fun p => ¬ Accepts ops strict p.1 p.2)).length := by
  induction R generalizing E with
  | nil => simp [mismatches]
  | cons r rs ih =>
    cases E with
    | nil => simp [mismatches]
    | cons e es =>
      simp only [mismatches, List.zip_cons_cons, List.filter_cons, ih]
      by_cases h : Accepts ops strict r e <;> simp [h]
      omega

example : ((((World.new false (fun _ => [(0, 5), (0, 6)])).addInterface exOps 3 (busMonitor (some "out"))
    (.list 0) .none 0 true).1.receiveAll 3 [(0, 5), (1, 6), (0, 7)] 0).1.sb.errors) = 2 := by decide
example : ((((World.new false (fun _ => [(0, 5), (0, 6)])).addInterface exOps 3 (busMonitor (some "out"))
    (.list 0) .none 0 true).1.receiveAll 3 [(0, 5), (0, 6)] 0).1.sb.result) = .ok () := by decide

/-- The defaults of `add_interface` are `compare_fn=None`, `reorder_depth=0` and `strict_type=True` (scoreboard.py:162-171). -/
example (ops : TxnOps T) (w : World T) (mid : Nat) (info : MonInfo) (exp : Expected T) :
    w.addInterface ops mid info exp = w.addInterface ops mid info exp .none 0 true := rfl

/-! ### C25 -/

/-- C25, proved part: when `==` on the transactions agrees with acceptance (same type, resp. same
string) and is an equivalence, the verdict with reorder depth `d` is success exactly if the received
sequence is a `d`-reordering of the expected one. Missing: transactions of different types that compare
equal (`C25_violated`), where the search can pick an element of the wrong type. -/
theorem C25_reorder_partial (ops : TxnOps T) (strict : Bool)
    (heq : ∀ a b, ops.eq a b = true ↔ Accepts ops strict b a)
    (hsymm : ∀ a b, Accepts ops strict a b → Accepts ops strict b a)
    (htrans : ∀ a b c, Accepts ops strict a b → Accepts ops strict b c → Accepts ops strict a c)
    (heap : Nat → List T) (mid ref d : Nat) (name : Option String) (R : List T) :
    let w := ((World.new false heap).addInterface ops mid (busMonitor name) (.list ref) .none d strict).1
    (w.receiveAll mid R 0).2 = none ∧
    ((w.receiveAll mid R 0).1.sb.result = .ok () ↔ Reorders d (Accepts ops strict) (heap ref) R) := by
  intro w
  obtain ⟨-, a2, a3⟩ := new_addInterface ops false heap mid ref name d strict
  obtain ⟨r1, r2⟩ := receiveAll_feed _ mid R 0 w a3
  obtain ⟨sb', f1, f2, f3⟩ := feed_reorder ops name ref d strict heq hsymm htrans R 0 w.sb (by rw [a2]) (by rw [a2])
  rw [f1] at r1 r2
  have hexp : w.sb.expected = [(mid, .list ref)] := by rw [a2]
  refine ⟨r2, ?_⟩
  rw [r1, result_single sb' mid ref (by rw [f2, hexp]), f3, a2]

/-- C25: success implies that the received sequence is a permutation of the expected one. -/
theorem C25_permutation (d : Nat) (acc : T → T → Prop) (hacc : ∀ a b, acc a b → a = b) (E R : List T)
    (h : Reorders d acc E R) : R.Perm E := by
  induction h with
  | nil => exact List.Perm.refl _
  | take pre post e got R hpre ha _ ih =>
    rw [hacc _ _ ha]
    exact (List.Perm.cons e ih).trans List.perm_middle.symm

/-- C25: no element is received before one that was more than `d` positions earlier in the expected
list: at each step the chosen element is at index ≤ d of the remaining list. With `d = 0` the order is
unchanged. -/
theorem C25_depth_zero (acc : T → T → Prop) (hacc : ∀ a b, acc a b → a = b) (E R : List T)
    (h : Reorders 0 acc E R) : R = E := by
  induction h with
  | nil => rfl
  | take pre post e got R hpre ha _ ih =>
    cases pre with
    | nil => rw [hacc _ _ ha, ih]; rfl
    | cons x xs => simp at hpre

/-- C25 is false in general: expected `[1.0, 1]`, depth 1, received `1, 1.0`: the received sequence is a
1-reordering, but the search takes `1.0` for `1` and reports a type mismatch. -/
theorem C25_violated :
    Reorders 1 (Accepts exOps true) [(1, 1), (0, 1)] [(0, 1), (1, 1)] ∧
    ((((World.new false (fun _ => [(1, 1), (0, 1)])).addInterface exOps 0 (busMonitor none)
      (.list 0) .none 1 true).1.receiveAll 0 [(0, 1), (1, 1)] 0).1.sb.result ≠ .ok ()) := by
  refine ⟨?_, by decide⟩
  exact .take [(1, 1)] [] (0, 1) (0, 1) [(1, 1)] (by decide) (by decide)
    (.take [] [] (1, 1) (1, 1) [] (by decide) (by decide) .nil)

/-- the hypotheses of `C25_reorder_partial` hold for transactions of one type with a proper `==` -/
example : (∀ a b, exOps2.eq a b = true ↔ Accepts exOps2 true b a) ∧
    (∀ a b, Accepts exOps2 true a b → Accepts exOps2 true b a) ∧
    (∀ a b c, Accepts exOps2 true a b → Accepts exOps2 true b c → Accepts exOps2 true a c) := by
  simp only [Accepts, exOps2, if_true, true_and, beq_iff_eq]
  exact ⟨fun a b => eq_comm, fun a b h => h.symm, fun a b c h1 h2 => h1.trans h2⟩
example : Reorders 1 (Accepts exOps2 true) [1, 2, 3] [2, 1, 3] :=
  .take [1] [3] 2 2 [1, 3] (by decide) (by decide)
    (.take [] [3] 1 1 [3] (by decide) (by decide) (.take [] [] 3 3 [] (by decide) (by decide) .nil))

/-! ### C26 -/

/-- C26, proved part: any number of interfaces on distinct monitors with distinct expected lists,
any depths and strictness, any interleaving of receptions and extensions of the expected lists,
`fail_immediately` or not: if the verdict is success then on every interface exactly as many
transactions were received as were expected. Missing: registering the same monitor twice
(`C26_violated`). -/
theorem C26_counts_partial (ops : TxnOps T) (name : Option String) (imm : Bool) (heap : Nat → List T)
    (ifs : List Iface) (hmid : (ifs.map Iface.mid).Nodup) (href : (ifs.map Iface.ref).Nodup)
    (h : List (SbOp T))
    (hok : (playSb h (addAll ops (busMonitor name) ifs (World.new imm heap))).sb.result = .ok ()) :
    ∀ i ∈ ifs, delivered i.mid h = (heap i.ref).length + added i.ref h := by
  obtain ⟨a1, a2, a3, a4, a5⟩ := addAll_wired ops name ifs [] (World.new imm heap) (by simpa using hmid)
    ⟨by simp, fun _ _ => rfl⟩ rfl
  simp only [List.nil_append] at a1 a2
  obtain ⟨b1, b2, b3⟩ := playSb_balance ops (busMonitor name) (by simp [busMonitor]) ifs href h _ a1
  intro i hi
  unfold SB.result at hok
  split at hok
  · cases hok
  · rename_i hp
    split at hok
    · cases hok
    · rename_i he
      simp only [ne_eq, Decidable.not_not] at he
      have hbal := b3 he i hi
      rw [a4] at hbal
      have hempty : ((playSb h (addAll ops (busMonitor name) ifs (World.new imm heap))).sb.heap i.ref).length = 0 := by
        simp only [SB.pending, List.any_eq_true, not_exists, not_and] at hp
        have := hp (i.mid, .list i.ref) (by rw [b1, a2]; exact List.mem_map.2 ⟨i, hi, rfl⟩)
        simpa using this
      rw [hempty] at hbal
      simp only [World.new] at hbal
      omega

/-- C26, proved part, with monitors that may be added any number of times, each time with another expected list: if the verdict is success, then on no interface more
transactions were received than were expected, and on the last interface of each monitor as many. (Of the others output may be missing: `C26_violated`.) -/
theorem C26_repeated_partial (ops : TxnOps T) (name : Option String) (imm : Bool) (heap : Nat → List T)
    (ifs : List Iface) (href : (ifs.map Iface.ref).Nodup) (h : List (SbOp T))
    (hok : (playSb h (addAll ops (busMonitor name) ifs (World.new imm heap))).sb.result = .ok ()) :
    (∀ i ∈ ifs, delivered i.mid h ≤ (heap i.ref).length + added i.ref h) ∧
    (∀ a i b, ifs = a ++ i :: b → i.mid ∉ b.map Iface.mid → delivered i.mid h = (heap i.ref).length + added i.ref h) := by
  obtain ⟨a1, a2, a3, -, a5⟩ := addAll_all ops name ifs [] (World.new imm heap) (fun _ => rfl)
  simp only [List.nil_append] at a1
  obtain ⟨b1, b2, b3⟩ := playSb_all ops (busMonitor name) (by simp [busMonitor]) ifs href h _ a1
  unfold SB.result at hok
  split at hok
  · cases hok
  · rename_i hp
    split at hok
    · cases hok
    · rename_i he
      simp only [ne_eq, Decidable.not_not] at he
      have hbal := b3 he
      rw [a3] at hbal
      refine ⟨fun i hi => ?_, ?_⟩
      · have := hbal i hi
        simp only [World.new] at this ⊢
        omega
      · intro a i b hab hib
        have := hbal i (by rw [hab]; simp)
        have hempty : ((playSb h (addAll ops (busMonitor name) ifs (World.new imm heap))).sb.heap i.ref).length = 0 := by
          simp only [SB.pending, List.any_eq_true, not_exists, not_and] at hp
          have := hp (i.mid, .list i.ref) (by rw [b1]; exact a5 a i b hab hib)
          simpa using this
        simp only [World.new] at this hempty ⊢
        omega

-- one monitor twice, and another one
example : let ifs : List Iface := [⟨0, 10, 0, true⟩, ⟨1, 11, 2, false⟩, ⟨0, 12, 0, true⟩]
    let h : List (SbOp Nat) := [.recv 0 5, .extend 11 [8], .recv 1 8, .recv 1 6]
    (ifs.map Iface.ref).Nodup ∧ (playSb h (addAll exOps2 (busMonitor none) ifs (World.new true
      (fun r => if r = 10 then [5, 5] else if r = 12 then [5] else [6])))).sb.result = .ok () := by decide

/-- C26, proved part, with lists and functions as expected outputs and monitors that may be added any number of times: if the verdict is success, then on no interface with
a list more transactions were received than were expected, on the last interface of each monitor, if it has a list, as many, and each transaction received on an interface
with a function is accepted against what the function returns for it. -/
theorem C26_mixed_partial (ops : TxnOps T) (name : Option String) (imm : Bool) (heap : Nat → List T)
    (ifs : List (AnyIface T)) (href : (listsOf ifs).Nodup) (h : List (SbOp T))
    (hok : (playSb h (addAny ops (busMonitor name) ifs (World.new imm heap))).sb.result = .ok ()) :
    (∀ i ∈ ifs, ∀ ref, i.exp = .list ref → delivered i.mid h ≤ (heap ref).length + added ref h) ∧
    (∀ a i b, ifs = a ++ i :: b → i.mid ∉ b.map AnyIface.mid → ∀ ref, i.exp = .list ref → delivered i.mid h = (heap ref).length + added ref h) ∧
    (∀ i ∈ ifs, ∀ f, i.exp = .fn f → ∀ t ∈ receivedOf i.mid h, Accepts ops i.strict t (f t)) := by
  obtain ⟨a1, a3, -, a5⟩ := addAny_all ops name ifs [] (World.new imm heap) (fun _ => rfl)
  simp only [List.nil_append] at a1
  obtain ⟨b1, b2, b3⟩ := playSb_any ops (busMonitor name) (by simp [busMonitor]) ifs href h _ a1
  unfold SB.result at hok
  split at hok
  · cases hok
  · rename_i hp
    split at hok
    · cases hok
    · rename_i he
      simp only [ne_eq, Decidable.not_not] at he
      have hbal := b3 he
      rw [a3] at hbal
      refine ⟨fun i hi ref hx => ?_, ?_, fun i hi f hx => ?_⟩
      · have := hbal i hi
        rw [hx] at this
        simp only [World.new] at this ⊢
        omega
      · intro a i b hab hib ref hx
        have := hbal i (by rw [hab]; simp)
        rw [hx] at this
        have hempty : ((playSb h (addAny ops (busMonitor name) ifs (World.new imm heap))).sb.heap ref).length = 0 := by
          simp only [SB.pending, List.any_eq_true, not_exists, not_and] at hp
          have := hp (i.mid, .list ref) (by rw [b1, ← hx]; exact a5 a i b hab hib)
          simpa using this
        simp only [World.new] at this hempty ⊢
        omega
      · have := hbal i hi
        rw [hx] at this
        exact this

-- one monitor with a list and, added again, with a function, and another monitor with a list
example : let ifs : List (AnyIface (Nat × Nat)) := [⟨0, .list 10, 0, true⟩, ⟨1, .list 11, 2, false⟩, ⟨0, .fn (fun t => (0, t.2)), 0, true⟩]
    let h : List (SbOp (Nat × Nat)) := [.extend 10 [(0, 5)], .recv 0 (0, 5), .extend 11 [(0, 6), (0, 7)], .recv 1 (0, 7), .recv 1 (0, 6)]
    (listsOf ifs).Nodup ∧ (playSb h (addAny exOps (busMonitor none) ifs (World.new false (fun _ => [])))).sb.result = .ok () := by
  refine ⟨by decide, by rfl⟩

/-- C26 is false of the code when the same monitor is added twice: only the last expected list is
remembered, so output still missing from the first list goes unnoticed. -/
theorem C26_violated :
    ∃ (w1 w2 : World Nat),
      (World.new false (fun r => if r = 0 then [1, 2] else [1])).addInterface exOps2 7 (busMonitor none) (.list 0) = (w1, none) ∧
      w1.addInterface exOps2 7 (busMonitor none) (.list 1) = (w2, none) ∧
      (w2.receive 7 1).2 = none ∧ (w2.receive 7 1).1.sb.result = .ok () ∧
      ((w2.receive 7 1).1.sb.heap 0) = [2] :=
  ⟨_, _, rfl, rfl, by decide, by decide, by decide⟩

example : let ifs : List Iface := [⟨0, 10, 0, true⟩, ⟨1, 11, 2, false⟩]
    let h : List (SbOp Nat) := [.recv 0 5, .extend 11 [8], .recv 1 8, .recv 1 6]
    (playSb h (addAll exOps2 (busMonitor none) ifs (World.new true
      (fun r => if r = 10 then [5] else [6])))).sb.result = .ok () := by decide

/-! ### C27 -/

/-- C27: with `fail_immediately=True` and depth 0 the reception of exactly the first transaction that
is unexpected or mismatches raises AssertionError, with the error counter at 1; with none, nothing is
raised and the counter stays 0. -/
theorem C27_fail_immediately (ops : TxnOps T) (strict : Bool) (heap : Nat → List T) (mid ref : Nat)
    (name : Option String) (R : List T) :
    let w := ((World.new true heap).addInterface ops mid (busMonitor name) (.list ref) .none 0 strict).1
    match firstBad ops strict R (heap ref) with
    | none => (w.receiveAll mid R 0).2 = none ∧ (w.receiveAll mid R 0).1.sb.errors = 0
    | some k => (∃ msg, (w.receiveAll mid R 0).2 = some (k, .assertion msg)) ∧
        (w.receiveAll mid R 0).1.sb.errors = 1 := by
  intro w
  obtain ⟨-, a2, a3⟩ := new_addInterface ops true heap mid ref name 0 strict
  obtain ⟨r1, r2⟩ := receiveAll_feed _ mid R 0 w a3
  have f := feed_imm ops name ref strict R 0 w.sb (by rw [a2])
  have hheap : w.sb.heap ref = heap ref := by rw [a2]
  have herr : w.sb.errors = 0 := by rw [a2]
  rw [hheap] at f
  cases hb : firstBad ops strict R (heap ref) with
  | none =>
    rw [hb] at f
    obtain ⟨sb', f1, f2⟩ := f
    rw [f1] at r1 r2
    exact ⟨r2, by rw [r1, f2, herr]⟩
  | some k =>
    rw [hb] at f
    obtain ⟨sb', msg, f1, f2⟩ := f
    rw [f1] at r1 r2
    exact ⟨⟨msg, by rw [r2]; simp⟩, by rw [r1, f2, herr]⟩

/-- meaning of `firstBad`: the least position that is surplus or not acceptable -/
theorem C27_firstBad (ops : TxnOps T) (strict : Bool) (R E : List T) (k : Nat) :
    firstBad ops strict R E = some k ↔
      k < R.length ∧ (∀ i (_ : i < k) (h2 : i < R.length), ∃ h3 : i < E.length, Accepts ops strict R[i] E[i]) ∧
      (∀ (h1 : k < R.length) (h2 : k < E.length), ¬ Accepts ops strict R[k] E[k]) := by
  induction R generalizing E k with
  | nil => simp [firstBad]
  | cons r rs ih =>
    cases E with
    | nil =>
      simp only [firstBad, Option.some.injEq]
      constructor
      · intro h; subst h; simp
      · rintro ⟨h1, h2, -⟩
        cases k with
        | zero => rfl
        | succ k => obtain ⟨h3, -⟩ := h2 0 (by omega) (by simp); simp at h3
    | cons e es =>
      simp only [firstBad]
      by_cases ha : Accepts ops strict r e
      · rw [if_pos ha, Option.map_eq_some_iff]
        constructor
        · rintro ⟨k', hk', rfl⟩
          obtain ⟨h1, h2, h3⟩ := (ih es k').1 hk'
          refine ⟨by simpa using h1, ?_, ?_⟩
          · intro i hi1 hi2
            cases i with
            | zero => exact ⟨by simp, ha⟩
            | succ i =>
              obtain ⟨h4, h5⟩ := h2 i (by omega) (by simpa using hi2)
              exact ⟨by simpa using h4, by simpa using h5⟩
          · intro h4 h5
            exact h3 (by simpa using h4) (by simpa using h5)
        · rintro ⟨h1, h2, h3⟩
          cases k with
          | zero => exact absurd ha (h3 (by simp) (by simp))
          | succ k =>
            refine ⟨k, (ih es k).2 ⟨by simpa using h1, ?_, ?_⟩, rfl⟩
            · intro i hi1 hi2
              obtain ⟨h4, h5⟩ := h2 (i + 1) (by omega) (by simpa using hi2)
              exact ⟨by simpa using h4, by simpa using h5⟩
            · intro h4 h5
              exact h3 (by simpa using h4) (by simpa using h5)
      · rw [if_neg ha]
        constructor
        · intro h
          cases h
          exact ⟨by simp, by simp, fun _ _ => ha⟩
        · rintro ⟨h1, h2, h3⟩
          cases k with
          | zero => rfl
          | succ k =>
            obtain ⟨h4, h5⟩ := h2 0 (by omega) (by simp)
            exact absurd h5 ha

example : firstBad exOps2 true [1, 2, 9, 4] [1, 2, 3] = some 2 := by decide
example : firstBad exOps2 true [1, 2, 3, 4] [1, 2, 3] = some 3 := by decide

/-! ### C28 -/

/-- C28: `compare` records no error and raises nothing exactly when the received transaction has
the same type and compares equal (strict), resp. has the same string representation (not strict);
otherwise it records exactly one error and raises exactly with `fail_immediately`. -/
theorem C28_compare (ops : TxnOps T) (sb : SB T) (got exp : T) :
    (((sb.compare ops got exp true).1.errors = sb.errors ∧ (sb.compare ops got exp true).2 = none) ↔
      ops.ty got = ops.ty exp ∧ ops.eq got exp = true) ∧
    (((sb.compare ops got exp false).1.errors = sb.errors ∧ (sb.compare ops got exp false).2 = none) ↔
      ops.str got = ops.str exp) ∧
    (∀ strict, (sb.compare ops got exp strict).1.errors = sb.errors ∨
      ((sb.compare ops got exp strict).1.errors = sb.errors + 1 ∧
        ((sb.compare ops got exp strict).2.isSome ↔ sb.imm = true))) := by
  have key (strict : Bool) : ((sb.compare ops got exp strict).1.errors = sb.errors ∧
      (sb.compare ops got exp strict).2 = none) ↔ Accepts ops strict got exp := by
    by_cases ha : Accepts ops strict got exp
    · simp [compare_accept _ _ _ _ _ ha, ha]
    · obtain ⟨msg, hm⟩ := compare_reject ops sb got exp strict ha
      simp [hm, ha]
  refine ⟨by simpa [Accepts] using key true, by simpa [Accepts] using key false, ?_⟩
  intro strict
  by_cases ha : Accepts ops strict got exp
  · left; rw [compare_accept _ _ _ _ _ ha]
  · right
    obtain ⟨msg, hm⟩ := compare_reject ops sb got exp strict ha
    rw [hm]
    refine ⟨rfl, ?_⟩
    cases sb.imm <;> simp

example : Accepts exOps true (0, 1) (0, 1) ∧ ¬ Accepts exOps true (0, 1) (1, 1) ∧ Accepts exOps false (0, 1) (2, 1) ∧
    ¬ Accepts exOps false (0, 1) (1, 1) := by decide

/-! ### C29 -/

/-- C29 is false of the code: a call that raises TypeError still registers the expected list, and the
verdict then fails although nothing was ever expected on a real interface. -/
theorem C29_violated (ops : TxnOps T) (imm : Bool) (heap : Nat → List T) (mid ref : Nat) (info : MonInfo)
    (hinfo : info.isMonitor = false) (hne : heap ref ≠ []) :
    ((World.new imm heap).addInterface ops mid info (.list ref)).2 = some .typeError ∧
    (World.new imm heap).sb.result = .ok () ∧
    ((World.new imm heap).addInterface ops mid info (.list ref)).1.sb.result ≠ .ok () := by
  refine ⟨by simp [World.addInterface, hinfo], by simp [World.new, SB.result, SB.pending], ?_⟩
  simp [World.addInterface, hinfo, World.new, SB.result, SB.pending, dictSet, hne]

/-- C29, proved part: a call that raises TypeError changes no monitor, no list and no error count, and
leaves the verdict unchanged as long as the monitor was not registered before and the offending
`expected_output` is a function, or a list that is empty when the verdict is asked for. -/
theorem C29_rejected_partial (ops : TxnOps T) (w : World T) (mid : Nat) (info : MonInfo) (exp : Expected T)
    (cf : CompareFn T) (depth : Int) (strict : Bool)
    (hraise : (w.addInterface ops mid info exp cf depth strict).2 = some .typeError) :
    let w' := (w.addInterface ops mid info exp cf depth strict).1
    w'.mons = w.mons ∧ w'.sb.heap = w.sb.heap ∧ w'.sb.errors = w.sb.errors ∧
    (mid ∉ w.sb.expected.map Prod.fst →
      (match exp with
        | .fn _ => True
        | .list ref => w.sb.heap ref = []) → w'.sb.result = w.sb.result) := by
  have hshape : (w.addInterface ops mid info exp cf depth strict).1 =
      { w with sb := { w.sb with expected := dictSet w.sb.expected mid exp } } := by
    unfold World.addInterface at hraise ⊢
    simp only at hraise ⊢
    split at hraise
    · rename_i hi; rw [if_pos hi]
    · rename_i hi
      rw [if_neg hi]
      cases cf with
      | none => simp at hraise
      | callable c => simp at hraise
      | notCallable => rfl
  intro w'
  have hw' : w' = { w with sb := { w.sb with expected := dictSet w.sb.expected mid exp } } := hshape
  rw [hw']
  refine ⟨rfl, rfl, rfl, ?_⟩
  intro hfresh hexp
  have hd : dictSet w.sb.expected mid exp = w.sb.expected ++ [(mid, exp)] := by
    have : ∀ l : List (Nat × Expected T), mid ∉ l.map Prod.fst → dictSet l mid exp = l ++ [(mid, exp)] := by
      intro l
      induction l with
      | nil => intro _; rfl
      | cons x xs ih =>
        intro hx
        simp only [List.map_cons, List.mem_cons, not_or] at hx
        obtain ⟨a, b⟩ := x
        simp only [dictSet]
        rw [if_neg (fun e => hx.1 e.symm), ih hx.2]
        rfl
    exact this _ hfresh
  have hp : ({ w.sb with expected := dictSet w.sb.expected mid exp } : SB T).pending = w.sb.pending := by
    simp only [SB.pending, hd, List.any_append, List.any_cons, List.any_nil, Bool.or_false]
    cases exp with
    | fn f => simp
    | list ref =>
      simp only at hexp
      simp [hexp]
  simp only [SB.result, hp]

example : ((World.new true (fun _ => [1])).addInterface exOps2 0 ⟨false, none⟩ (.fn id)).2 = some .typeError := by
  decide

/-! ### C30 -/

/-- C30 is false of the code for the XGMII monitor: it has no `name`, so every transaction it
delivers makes the scoreboard callback raise AttributeError, and nothing is compared. -/
theorem C30_violated (ops : TxnOps T) (imm : Bool) (heap : Nat → List T) (mid : Nat) (exp : Expected T) (depth : Int)
    (strict : Bool) (t : T) :
    let w := ((World.new imm heap).addInterface ops mid xgmiiMonitor exp .none depth strict).1
    (w.receive mid t).2 = some .attributeError ∧ (w.receive mid t).1.sb = w.sb := by
  simp [World.addInterface, xgmiiMonitor, World.new, World.setMon, Monitor.addCallback, World.receive, Monitor.recv,
    runCallbacks, checkReceived]

/-- C30, proved part: for a monitor with a name attribute (every BusMonitor) the only exception the
callback raises is the AssertionError of `fail_immediately`; it compares against the expected output.
Missing: the XGMII monitor (`C30_violated`). -/
theorem C30_bus_monitors_partial (ops : TxnOps T) (name : Option String) (exp : Expected T) (depth : Int)
    (strict : Bool) (t : T) (sb : SB T) :
    let r := checkReceived ops (busMonitor name) exp depth strict t sb
    (∀ e, r.2 = some e → (∃ msg, e = .assertion msg) ∧ sb.imm = true) ∧
    (r.1.errors = sb.errors ↔ match exp with
      | .fn f => Accepts ops strict t (f t)
      | .list ref => ∃ e ∈ sb.heap ref, Accepts ops strict t e ∧ r.1.heap ref = (sb.heap ref).eraseIdx (reorderIndex ops depth (sb.heap ref) t)
          ∧ (sb.heap ref)[reorderIndex ops depth (sb.heap ref) t]? = some e) := by
  intro r
  cases exp with
  | fn f =>
    have hr : r = sb.compare ops t (f t) strict := rfl
    by_cases ha : Accepts ops strict t (f t)
    · rw [hr, compare_accept _ _ _ _ _ ha]
      simp [ha]
    · obtain ⟨msg, hm⟩ := compare_reject ops sb t (f t) strict ha
      rw [hr, hm]
      refine ⟨?_, by simp [ha]⟩
      intro e he
      cases hi : sb.imm with
      | false => simp [hi] at he
      | true => simp [hi] at he; exact ⟨⟨msg, he.symm⟩, rfl⟩
  | list ref =>
    by_cases hE : sb.heap ref = []
    · obtain ⟨msg, hc⟩ := check_empty ops (busMonitor name) (by simp [busMonitor]) ref depth strict t sb hE
      have hr : r = _ := hc
      rw [hr]
      refine ⟨?_, by simp [hE]⟩
      intro e he
      cases hi : sb.imm with
      | false => simp [hi] at he
      | true => simp [hi] at he; exact ⟨⟨msg, he.symm⟩, rfl⟩
    · obtain ⟨e, he, hc⟩ := check_nonempty ops (busMonitor name) (by simp [busMonitor]) ref depth strict t sb hE
      have hr : r = _ := hc
      by_cases ha : Accepts ops strict t e
      · rw [hr, compare_accept _ _ _ _ _ ha]
        refine ⟨by simp, ?_⟩
        simp only [SB.setList, true_iff]
        exact ⟨e, List.mem_of_getElem? he, ha, by simp, he⟩
      · obtain ⟨msg, hm⟩ := compare_reject ops (sb.setList ref ((sb.heap ref).eraseIdx (reorderIndex ops depth (sb.heap ref) t))) t e strict ha
        rw [hr, hm]
        refine ⟨?_, ?_⟩
        · intro e he
          cases hi : sb.imm with
          | false => simp [SB.setList, hi] at he
          | true => simp [SB.setList, hi] at he; exact ⟨⟨msg, he.symm⟩, rfl⟩
        · simp only [SB.setList]
          constructor
          · intro h; omega
          · rintro ⟨e', -, h2, -, h4⟩
            rw [he] at h4
            cases h4
            exact absurd h2 ha

end CocotbBus
