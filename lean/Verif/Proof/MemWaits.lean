import Verif.Spec.MemWaits
import Verif.Props.MemOps
import Verif.Proof.Idle

/-! # Sequences of bursts of an `AvalonMemory` that inserts wait states -/

namespace CocotbBus
open Spec Coro

/-! ### Recognising bursts -/

theorem mk_zero (gaps : Bool) : ∀ l : List (MemOut × MemIn), MasterKeeps gaps 0 l
  | [] => trivial
  | [_] => trivial
  | _ :: q' :: l => ⟨fun h => by omega, by rw [Nat.zero_sub]; exact mk_zero gaps (q' :: l)⟩

/-- what the master does after a burst does not matter -/
theorem mk_more (gaps : Bool) (l : List (MemOut × MemIn)) : ∀ (cycles : List (MemOut × MemIn)) (b : Nat), (acceptedBeats cycles).length = b → cycles ≠ [] →
    MasterKeeps gaps b cycles → MasterKeeps gaps b (cycles ++ l)
  | [], _, _, h, _ => absurd rfl h
  | [q], b, hb, _, _ => by
    cases l with
    | nil => trivial
    | cons q' l =>
      show (_ → _) ∧ _
      rw [← hb, Nat.sub_self]
      exact ⟨fun h => by omega, mk_zero gaps _⟩
  | q :: q' :: cycles, b, hb, _, h => by
    refine ⟨h.1, mk_more gaps l (q' :: cycles) _ ?_ (by simp) h.2⟩
    rw [acceptedBeats_cons, List.length_append] at hb
    omega

theorem accepted_one (q : MemOut × MemIn) : acceptedBeats [q] ≠ [] ↔ q.2.write = .one ∧ q.1.waitrequest = .zero := by
  unfold acceptedBeats
  by_cases h : (q.2.write == .one && q.1.waitrequest == .zero) = true <;> simp_all

theorem accepted_waiting (l : List (MemOut × MemIn)) (h : ∀ q ∈ l, q.1.waitrequest = .one) : acceptedBeats l = [] := by
  unfold acceptedBeats
  rw [List.filter_eq_nil_iff.2 (by intro q hq; simp [h q hq]), List.map_nil]

/-- two beginnings of the same cycles that end with the same beat -/
theorem same_beginning (l a b : List (MemOut × MemIn)) (qa qb : MemOut × MemIn) (ha : a ++ [qa] <+: l) (hb : b ++ [qb] <+: l) (hqa : acceptedBeats [qa] ≠ [])
    (hqb : acceptedBeats [qb] ≠ []) (hn : (acceptedBeats (a ++ [qa])).length = (acceptedBeats (b ++ [qb])).length) : a ++ [qa] = b ++ [qb] := by
  have key : ∀ (a b : List (MemOut × MemIn)) (qa qb : MemOut × MemIn), acceptedBeats [qb] ≠ [] →
      (acceptedBeats (a ++ [qa])).length = (acceptedBeats (b ++ [qb])).length → a ++ [qa] <+: b ++ [qb] → a ++ [qa] = b ++ [qb] := by
    intro a b qa qb hqb hn ⟨d, hd⟩
    rcases List.eq_nil_or_concat d with rfl | ⟨d, q, rfl⟩
    · rw [List.append_nil] at hd; exact hd
    · rw [List.concat_eq_append, ← List.append_assoc] at hd
      obtain ⟨h1, h2⟩ := List.append_inj' hd rfl
      rw [List.cons.injEq] at h2
      rw [← hd, acceptedBeats_append _ [q], acceptedBeats_append (a ++ [qa]) d, h2.1] at hn
      have := List.length_pos_iff.2 hqb
      simp only [List.length_append] at hn
      omega
  rcases List.prefix_or_prefix_of_prefix ha hb with h | h
  · exact key a b qa qb hqb hn h
  · exact (key b a qb qa hqa hn.symm h).symm

/-- a cycle with waitrequest is a cycle in which nothing is decided -/
theorem seen_drop1 {c : MemCfg} {gaps : Bool} {q : MemOut × MemIn} {l : List (MemOut × MemIn)} {ops : List BurstOp} (h : SeenOps c gaps (q :: l) ops)
    (hq : q.1.waitrequest = .one) : SeenOps c gaps l ops := by
  generalize hl : q :: l = t at h
  induction h with
  | none => cases hl
  | idle q' l' ops _ h _ => obtain ⟨-, rfl⟩ := List.cons.inj hl; exact h
  | write addr words cycles l' ops hw h _ =>
    obtain ⟨h1, h2, h3, h4, h5, h6⟩ := hw
    cases cycles with
    | nil => obtain ⟨_, _, h, _⟩ := h1; cases h
    | cons q' cycles =>
      obtain ⟨rfl, rfl⟩ := List.cons.inj hl
      obtain ⟨q1, l1, h1, hw1⟩ := h1
      obtain ⟨rfl, rfl⟩ := List.cons.inj h1
      have hacc : acceptedBeats [q] = [] := accepted_waiting _ (by simpa using hq)
      rw [acceptedBeats_cons, hacc, List.nil_append] at h6
      obtain ⟨a, qe, he, he1, he2⟩ := h2
      cases a with
      | nil =>
        obtain ⟨rfl, -⟩ := List.cons.inj he
        rw [hq] at he2; cases he2
      | cons q'' a =>
        rw [List.cons_append] at he
        obtain ⟨rfl, rfl⟩ := List.cons.inj he
        have hpos : 0 < words.length := by
          rw [← h6, acceptedBeats_append, List.length_append]
          have := List.length_pos_iff.2 ((accepted_one qe).2 ⟨he1, he2⟩)
          omega
        refine SeenOps.write addr words (a ++ [qe]) l' ops ⟨?_, ⟨a, qe, rfl, he1, he2⟩, fun x hx => h3 x (List.mem_cons_of_mem _ hx), ?_, ?_, h6⟩ h
        · cases a with
          | nil => exact ⟨qe, [], rfl, he1⟩
          | cons q2 a =>
            refine ⟨q2, a ++ [qe], rfl, ?_⟩
            have := h5.1
            rw [hacc] at this
            exact this hpos hw1 (Or.inr hq)
        · intro x y z hxyz hx
          exact h4 (q :: x) y z (by rw [hxyz]; rfl) (by rw [acceptedBeats_cons, hacc, hx]; rfl)
        · cases a with
          | nil => trivial
          | cons q2 a =>
            have := h5.2
            rw [hacc] at this
            exact this
  | read addr count cycles l' ops hr h _ =>
    obtain ⟨⟨w, acc, later, rfl, h1, h2, h3, h4, h5⟩, h6⟩ := hr
    cases w with
    | nil =>
      obtain ⟨rfl, -⟩ := List.cons.inj hl
      rw [hq] at h2; cases h2
    | cons q' w =>
      obtain ⟨rfl, rfl⟩ := List.cons.inj hl
      exact SeenOps.read addr count (w ++ acc :: later) l' ops
        ⟨⟨w, acc, later, rfl, fun x hx => h1 x (List.mem_cons_of_mem _ hx), h2, fun x hx => h3 x (List.mem_cons_of_mem _ hx), h4, h5⟩,
          fun x hx => h6 x (List.mem_cons_of_mem _ hx)⟩ h

theorem seen_dropWaits {c : MemCfg} {gaps : Bool} {ops : List BurstOp} {l : List (MemOut × MemIn)} : ∀ (e : List (MemOut × MemIn)), SeenOps c gaps (e ++ l) ops →
    (∀ q ∈ e, q.1.waitrequest = .one) → SeenOps c gaps l ops
  | [], h, _ => h
  | q :: e, h, he => seen_dropWaits e (seen_drop1 h (he q (by simp))) (fun x hx => he x (by simp [hx]))

theorem seen_idles {c : MemCfg} {gaps : Bool} {ops : List BurstOp} {l : List (MemOut × MemIn)} (h : SeenOps c gaps l ops) : ∀ e : List (MemOut × MemIn),
    (∀ q ∈ e, MemQuiet q.2) → SeenOps c gaps (e ++ l) ops
  | [], _ => h
  | q :: e, he => SeenOps.idle q _ ops (he q (by simp)) (seen_idles h e (fun x hx => he x (by simp [hx])))

theorem seen_nil {c : MemCfg} {gaps : Bool} {ops : List BurstOp} (h : SeenOps c gaps [] ops) : ops = [] := by
  generalize hl : ([] : List (MemOut × MemIn)) = t at h
  cases h with
  | none => rfl
  | idle => cases hl
  | write addr words cycles l ops hw h =>
    obtain ⟨⟨q, l', rfl, -⟩, -⟩ := hw
    cases hl
  | read addr count cycles l ops hr h =>
    obtain ⟨⟨w, acc, later, rfl, -⟩, -⟩ := hr
    cases w <;> cases hl

theorem noZeroWait_of_never {c : MemCfg} {rand : Nat → Nat} (h : NeverZeroWait c rand) : ∀ n k, NoZeroWait c rand n k
  | 0, _ => trivial
  | n + 1, k => by
    rw [NoZeroWait]
    split
    · rename_i h4
      exact ⟨h k h4, noZeroWait_of_never h n _⟩
    · exact noZeroWait_of_never h n _

/-! ### What a write burst does to the other pins -/

/-- nothing is being returned -/
def Silent (o : MemOut) : Prop := o.readdatavalid = .zero ∧ o.responses = []

theorem memHold_silent (n : Nat) : Keeps Silent (memHold n) := by
  induction n with
  | zero => exact Keeps.pure _
  | succ n ih => exact Keeps.bind (Keeps.write _ fun _ h => h) fun _ => Keeps.bind Keeps.awaitEdge fun _ => ih

theorem memDraw_silent (rand : Nat → Nat) : Keeps Silent (memDraw rand) :=
  Keeps.bind Keeps.getOut fun _ => Keeps.bind (Keeps.setPy _ fun _ h => h) fun _ => Keeps.pure _

theorem memWaitrequest_silent (c : MemCfg) (rand : Nat → Nat) : Keeps Silent (memWaitrequest c rand) := by
  refine Keeps.when _ (Keeps.bind (memDraw_silent rand) fun r => ?_)
  split
  · refine Keeps.bind (Keeps.bind (memDraw_silent rand) fun _ => Keeps.ite (Keeps.raise _) (Keeps.pure _)) fun m =>
      Keeps.bind (memHold_silent m) fun _ => Keeps.write _ fun _ h => h
  · exact Keeps.bind Keeps.nextStep fun _ => Keeps.write _ fun _ h => h

theorem memWaitWrite_silent : Keeps Silent memWaitWrite :=
  Keeps.bind Keeps.inp fun _ => Keeps.ite (Keeps.bind Keeps.nextStep fun _ => Keeps.loop _ (fun _ =>
    Keeps.bind Keeps.inp fun _ => Keeps.ite (Keeps.bind Keeps.awaitEdge fun _ => Keeps.bind Keeps.nextStep fun _ => Keeps.pure _) (Keeps.pure _)) _) (Keeps.pure _)

theorem memStore_silent (c : MemCfg) (a : Nat) : Keeps Silent (memStore c a) :=
  Keeps.bind Keeps.nextStep fun _ => Keeps.bind Keeps.inp fun _ => Keeps.bind (Keeps.ofExcept _) fun _ => Keeps.setPy _ fun _ h => h

theorem memBurstBeats_silent (c : MemCfg) (rand : Nat → Nat) (addr : Nat) : ∀ n k, Keeps Silent (memBurstBeats c rand addr n k)
  | 0, _ => Keeps.pure _
  | n + 1, k => Keeps.bind memWaitWrite_silent fun _ => Keeps.bind (memStore_silent c _) fun _ => Keeps.bind Keeps.awaitEdge fun _ =>
      Keeps.bind (memWaitrequest_silent c rand) fun _ => memBurstBeats_silent c rand addr n (k + 1)

/-- all of a write burst but the assignment at its end -/
def memBurstWriteHead (c : MemCfg) (rand : Nat → Nat) : M MemIn MemOut Unit := do
  memWaitrequest c rand
  let i ← inp
  let addr ← ofExcept (toUnsigned i.address)
  when (c.size == 0) (raise (.other 1))
  when c.beW.isNone (raise .attributeError)
  let burstcount ← ofExcept (toUnsigned i.burstcount)
  memBurstBeats c rand addr burstcount 0

theorem memBurstWrite_eq (c : MemCfg) (rand : Nat → Nat) : memBurstWrite c rand = (memBurstWriteHead c rand >>= fun _ =>
    when c.writeBurstWaitReq (write (fun o => { o with waitrequest := .one }))) := by
  simp only [memBurstWrite, memBurstWriteHead, bind_assoc]

theorem memBurstWriteHead_silent (c : MemCfg) (rand : Nat → Nat) : Keeps Silent (memBurstWriteHead c rand) :=
  Keeps.bind (memWaitrequest_silent c rand) fun _ => Keeps.bind Keeps.inp fun _ => Keeps.bind (Keeps.ofExcept _) fun _ =>
    Keeps.bind (Keeps.when _ (Keeps.raise _)) fun _ => Keeps.bind (Keeps.when _ (Keeps.raise _)) fun _ => Keeps.bind (Keeps.ofExcept _) fun _ =>
      memBurstBeats_silent c rand _ _ _

theorem memBurstWrite_silent (c : MemCfg) (rand : Nat → Nat) : Keeps Silent (memBurstWrite c rand) := by
  rw [memBurstWrite_eq]
  exact Keeps.bind (memBurstWriteHead_silent c rand) fun _ => Keeps.when _ (Keeps.write _ fun _ h => h)

theorem memBurstWrite_wait (c : MemCfg) (hwb : c.writeBurstWaitReq = true) (rand : Nat → Nat) (s s' : Sim MemIn MemOut) (h : (memBurstWrite c rand s).2 = .ok () s') :
    s'.out.waitrequest = .one := by
  rw [memBurstWrite_eq, bind_run] at h
  cases hx : memBurstWriteHead c rand s with
  | mk t e =>
    rw [hx] at h
    cases e with
    | err e s2 => cases h
    | blocked s2 => cases h
    | ok a s2 =>
      rw [andThen_ok] at h
      simp only [hwb, Coro.when, if_true, Coro.write] at h
      split at h
      · cases h
      · simp only [End.ok.injEq, true_and] at h
        rw [← h]

end CocotbBus
