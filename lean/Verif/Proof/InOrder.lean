import Verif.Spec.Cancel
import Verif.Proof.AxiProps

namespace CocotbBus
open Spec Coro
variable {I O P : Type}

theorem rBeats_append (a b : List (AddrOut × AxIn)) : rBeats (a ++ b) = rBeats a ++ rBeats b := by simp [rBeats]

theorem rBeats_none (a : List (AddrOut × AxIn)) (h : ∀ q ∈ a, rFire q.2 = false) : rBeats a = [] := by
  unfold rBeats
  rw [List.filter_eq_nil_iff]
  intro i hi
  obtain ⟨q, hq, rfl⟩ := List.mem_map.mp hi
  simp [h q hq]

/-- the first transfer of a trace -/
theorem after_split (V : Stream I O P) (t u : List (O × I)) (q : O × I) (h : V.after t = u ++ [q]) :
    ∃ pre x, t = pre ++ x :: (u ++ [q]) ∧ (∀ p ∈ pre, V.xfer p = false) ∧ V.xfer x = true := by
  induction t with
  | nil => simp [Stream.after] at h
  | cons y t ih =>
    by_cases hy : V.xfer y = true
    · refine ⟨[], y, ?_, by simp, hy⟩
      have : V.after (y :: t) = t := by simp [Stream.after, hy]
      rw [this] at h
      rw [h]; rfl
    · have hy' : V.xfer y = false := by simpa using hy
      have : V.after (y :: t) = V.after t := by simp [Stream.after, hy']
      rw [this] at h
      obtain ⟨pre, x, h1, h2, h3⟩ := ih h
      refine ⟨y :: pre, x, by rw [h1]; rfl, ?_, h3⟩
      intro p hp
      rcases List.mem_cons.mp hp with rfl | hp
      · exact hy'
      · exact h2 p hp

/-- with everything answered, no data beat comes before an address has been accepted -/
theorem inOrder_quiet (c : AxCfg) (answer : AddrReq → LogicArray) (t0 : List (AddrOut × AxIn)) (x : AddrOut × AxIn)
    (hd : (rBeats t0).length = ((arStream c).taken t0).length) : ∀ pre : List (AddrOut × AxIn), (∀ p ∈ pre, (arStream c).xfer p = false) →
    InOrder c answer (t0 ++ pre ++ [x]) → ∀ q ∈ pre ++ [x], rFire q.2 = false := by
  have key : ∀ (pre : List (AddrOut × AxIn)) (x : AddrOut × AxIn), (∀ p ∈ pre, (arStream c).xfer p = false) → (∀ q ∈ pre, rFire q.2 = false) →
      InOrder c answer (t0 ++ pre ++ [x]) → rFire x.2 = false := by
    intro pre x hp hq ho
    cases hx : rFire x.2 with
    | false => rfl
    | true =>
      obtain ⟨p, h1, -⟩ := ho (t0 ++ pre) x (List.prefix_refl _) hx
      rw [taken_append, taken_none _ pre hp, List.append_nil, rBeats_append, rBeats_none pre hq, List.append_nil, hd] at h1
      simp at h1
  have gen : ∀ n (pre : List (AddrOut × AxIn)) (x : AddrOut × AxIn), pre.length = n → (∀ p ∈ pre, (arStream c).xfer p = false) →
      InOrder c answer (t0 ++ pre ++ [x]) → ∀ q ∈ pre ++ [x], rFire q.2 = false := by
    intro n
    induction n with
    | zero =>
      intro pre x hl hp ho q hq
      have : pre = [] := List.length_eq_zero_iff.mp hl
      subst this
      simp only [List.nil_append, List.mem_singleton] at hq
      subst hq
      exact key [] q (by simp) (by simp) ho
    | succ n ih =>
      intro pre x hl hp ho
      have hne : pre ≠ [] := by intro h; rw [h] at hl; cases hl
      have hs := List.dropLast_concat_getLast hne
      have h1 : ∀ q ∈ pre, rFire q.2 = false := by
        rw [← hs]
        refine ih pre.dropLast (pre.getLast hne) (by simp [hl]) (fun p h => hp p (List.dropLast_subset _ h)) ?_
        intro t' q ht hf
        refine ho t' q (ht.trans ?_) hf
        rw [List.append_assoc, hs]
        exact List.prefix_append _ _
      intro q hq
      rcases List.mem_append.mp hq with hq | hq
      · exact h1 q hq
      · simp only [List.mem_singleton] at hq
        subst hq
        exact key pre q hp h1 ho
  exact fun pre hp ho => gen pre.length pre x rfl hp ho

/-- a check of `InOrder` by running through the trace -/
theorem inOrder_of_check (c : AxCfg) (answer : AddrReq → LogicArray) (t : List (AddrOut × AxIn))
    (h : ∀ k ∈ List.range t.length, ∀ q ∈ t[k]?.toList, rFire q.2 = true →
      ∃ p ∈ (((arStream c).taken (t.take k))[(rBeats (t.take k)).length]?).toList,
        q.2.rdata = answer p ∧ isResolvable q.2.rresp = true ∧ bitsToNat q.2.rresp = 0) : InOrder c answer t := by
  intro t' q ht hf
  obtain ⟨u, hu⟩ := ht
  have hk : t.take t'.length = t' := by rw [← hu]; simp
  have hq : t[t'.length]? = some q := by rw [← hu]; simp
  have hl : t'.length < t.length := by rw [← hu]; simp
  obtain ⟨p, h1, h2, h3, h4⟩ := h t'.length (by simpa using hl) q (by simp [hq]) hf
  rw [hk] at h1
  exact ⟨p, by simpa using h1, h2, h3, h4, by decide⟩

end CocotbBus
