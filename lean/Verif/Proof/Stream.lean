import Verif.Spec.Stream
import Verif.Proof.Coro

/-! # Lemmas about valid/ready streams -/

namespace CocotbBus
open Coro Spec
variable {I O P α β : Type} (V : Stream I O P)

/-- the records with valid not asserted -/
def idles (t : List (O × I)) : List (O × I) := t.filter (fun r => ! V.valid r.1)

theorem idles_append (a b : List (O × I)) : idles V (a ++ b) = idles V a ++ idles V b := by simp [idles]

theorem taken_append (a b : List (O × I)) : V.taken (a ++ b) = V.taken a ++ V.taken b := by simp [Stream.taken]

theorem idleBefore_append (k : Nat) (a b : List (O × I)) :
    V.idleBefore k (a ++ b) = V.idleBefore k a ++ V.idleBefore (V.trail k a) b := by
  induction a generalizing k with
  | nil => rfl
  | cons r a ih =>
    simp only [List.cons_append, Stream.idleBefore, Stream.trail]
    split
    · simp [ih]
    · split <;> exact ih _

theorem trail_append (k : Nat) (a b : List (O × I)) : V.trail k (a ++ b) = V.trail (V.trail k a) b := by
  induction a generalizing k with
  | nil => rfl
  | cons r a ih =>
    simp only [List.cons_append, Stream.trail]
    split
    · exact ih _
    · split <;> exact ih _

theorem holds_tail (a : O × I) (t : List (O × I)) (h : V.Holds (a :: t)) : V.Holds t := by
  cases t with
  | nil => trivial
  | cons b t => exact h.2

/-- joining two traces that share the record in between -/
theorem holds_join (a : List (O × I)) (m : O × I) (b : List (O × I)) (ha : V.Holds (a ++ [m])) (hb : V.Holds (m :: b)) :
    V.Holds (a ++ m :: b) := by
  induction a with
  | nil => exact hb
  | cons r a ih =>
    have := ih (holds_tail V _ _ ha)
    cases a with
    | nil => exact ⟨ha.1, this⟩
    | cons x a => exact ⟨ha.1, this⟩

/-- joining where the first record after is not constrained by the one before -/
theorem holds_cons_free (r : O × I) (t : List (O × I)) (hr : V.valid r.1 = false ∨ V.ready r.2 = true) (ht : V.Holds t) :
    V.Holds (r :: t) := by
  cases t with
  | nil => trivial
  | cons b t =>
    refine ⟨fun h1 h2 => ?_, ht⟩
    rcases hr with h | h
    · rw [h] at h1; cases h1
    · rw [h] at h2; cases h2

theorem holds_idle_append (a t : List (O × I)) (ha : ∀ r ∈ a, V.valid r.1 = false) (ht : V.Holds t) : V.Holds (a ++ t) := by
  induction a with
  | nil => exact ht
  | cons r a ih => exact holds_cons_free V r _ (.inl (ha r (by simp))) (ih (fun x hx => ha x (by simp [hx])))

theorem holds_held_append (p : P) (a t : List (O × I)) (m : O × I)
    (ha : ∀ r ∈ a, V.valid r.1 = true ∧ V.payload r.1 = p ∧ V.ready r.2 = false) (hm : V.valid m.1 = true ∧ V.payload m.1 = p)
    (ht : V.Holds (m :: t)) : V.Holds (a ++ m :: t) := by
  induction a with
  | nil => exact ht
  | cons r a ih =>
    have h1 := ih (fun x hx => ha x (by simp [hx]))
    have hr := ha r (by simp)
    cases a with
    | nil => exact ⟨fun _ _ => ⟨hm.1, by rw [hm.2, hr.2.1]⟩, h1⟩
    | cons b a =>
      have hb := ha b (by simp)
      exact ⟨fun _ _ => ⟨hb.1, by rw [hb.2.1, hr.2.1]⟩, h1⟩

theorem taken_none (a : List (O × I)) (ha : ∀ r ∈ a, V.xfer r = false) : V.taken a = [] := by
  rw [Stream.taken, List.map_eq_nil_iff, List.filter_eq_nil_iff]
  intro r hr
  simp [ha r hr]

theorem idleBefore_idles (a : List (O × I)) (ha : ∀ r ∈ a, V.valid r.1 = false) (k : Nat) :
    V.idleBefore k a = [] ∧ V.trail k a = k + a.length := by
  induction a generalizing k with
  | nil => exact ⟨rfl, rfl⟩
  | cons r a ih =>
    have hr := ha r (by simp)
    obtain ⟨h1, h2⟩ := ih (fun x hx => ha x (by simp [hx])) (k + 1)
    simp only [Stream.idleBefore, Stream.trail, Stream.xfer, hr, Bool.false_and, Bool.false_eq_true, if_false, h1, h2]
    exact ⟨trivial, by simp; omega⟩

theorem idleBefore_helds (a : List (O × I)) (ha : ∀ r ∈ a, V.valid r.1 = true ∧ V.ready r.2 = false) (k : Nat) :
    V.idleBefore k a = [] ∧ V.trail k a = k := by
  induction a generalizing k with
  | nil => exact ⟨rfl, rfl⟩
  | cons r a ih =>
    have hr := ha r (by simp)
    obtain ⟨h1, h2⟩ := ih (fun x hx => ha x (by simp [hx])) k
    simp [Stream.idleBefore, Stream.trail, Stream.xfer, hr, h1, h2]

/-- an edge at which the sink is ready transfers or is idle -/
theorem ready_count_stream (t : List (O × I)) :
    (t.filter (fun r => V.ready r.2)).length ≤ (idles V t).length + (V.taken t).length := by
  induction t with
  | nil => simp [idles, Stream.taken]
  | cons r t ih =>
    simp only [idles, Stream.taken, List.length_map, List.filter_cons] at ih ⊢
    have hx : V.xfer r = (V.valid r.1 && V.ready r.2) := rfl
    rcases Bool.eq_false_or_eq_true (V.valid r.1) with h1 | h1 <;>
      rcases Bool.eq_false_or_eq_true (V.ready r.2) with h2 | h2 <;>
      simp only [hx, h1, h2] <;> simp <;> omega

/-- Result of a program part that offers one payload `p` after `n` idle edges and returns right after the transfer. -/
def Offers (p : P) (n : Nat) (r : Res I O α) (post : α → Sim I O → Prop) : Prop :=
  ∃ idle held : List (O × I), (∀ q ∈ idle, V.valid q.1 = false) ∧
    (∀ q ∈ held, V.valid q.1 = true ∧ V.payload q.1 = p ∧ V.ready q.2 = false) ∧
    ((∃ s', r = (idle, .blocked s') ∧ V.valid s'.out = false ∧ idle.length ≤ n) ∨
     (idle.length = n ∧
      ((∃ s', r = (idle ++ held, .blocked s') ∧ V.valid s'.out = true ∧ V.payload s'.out = p) ∨
       (∃ q a s', r = (idle ++ held ++ [q], .ok a s') ∧ V.valid q.1 = true ∧ V.payload q.1 = p ∧ V.ready q.2 = true ∧
          post a s'))))

/-- Result of a program part that transfers the payloads `l`, with `ns` idle edges before each, and no idle edge after the last. -/
def Runs (l : List P) (ns : List Nat) (r : Res I O α) (post : α → Sim I O → Prop) : Prop :=
  ∃ k ≤ l.length, V.taken r.1 = l.take k ∧ V.idleBefore 0 r.1 = ns.take k ∧ V.Holds (pending r) ∧
    (idles V r.1).length ≤ ns.sum ∧
    ((k = l.length ∧ V.trail 0 r.1 = 0 ∧ (∀ q, r.1.getLast? = some q → V.xfer q = true) ∧ ∃ a s', r.2 = .ok a s' ∧ post a s') ∨
     (k < l.length ∧ ∃ s', r.2 = .blocked s' ∧ (V.valid s'.out = true → l[k]? = some (V.payload s'.out))))

theorem Runs.nil (a : α) (s : Sim I O) (post : α → Sim I O → Prop) (h : post a s) :
    Runs V [] [] (([], .ok a s) : Res I O α) post :=
  ⟨0, by simp, rfl, rfl, trivial, by simp [idles], .inl ⟨rfl, rfl, by simp, a, s, rfl, h⟩⟩

theorem Runs.mono {l : List P} {ns : List Nat} {r : Res I O α} {post post' : α → Sim I O → Prop}
    (h : Runs V l ns r post) (hp : ∀ a s, post a s → post' a s) : Runs V l ns r post' := by
  obtain ⟨k, hk, h1, h2, h3, h4, h5⟩ := h
  refine ⟨k, hk, h1, h2, h3, h4, ?_⟩
  rcases h5 with ⟨h5, h6, h7, a, s', h8, h9⟩ | h5
  · exact .inl ⟨h5, h6, h7, a, s', h8, hp _ _ h9⟩
  · exact .inr h5

theorem Offers.runs {p : P} {n : Nat} {r : Res I O α} {post : α → Sim I O → Prop} (h : Offers V p n r post) :
    Runs V [p] [n] r post := by
  obtain ⟨idle, held, hi, hh, h⟩ := h
  have ti : V.taken idle = [] := taken_none V idle (fun q hq => by simp [Stream.xfer, hi q hq])
  have th : V.taken held = [] := taken_none V held (fun q hq => by simp [Stream.xfer, hh q hq])
  have bi := idleBefore_idles V idle hi
  have bh := idleBefore_helds V held (fun q hq => ⟨(hh q hq).1, (hh q hq).2.2⟩)
  have li : (idles V idle).length ≤ idle.length := List.length_filter_le _ _
  have lh : idles V held = [] := by
    rw [idles, List.filter_eq_nil_iff]; intro q hq; simp [hh q hq]
  rcases h with ⟨s', rfl, h1, h2⟩ | ⟨hn, ⟨s', rfl, h1, h2⟩ | ⟨q, a, s', rfl, h1, h2, h3, h4⟩⟩
  · refine ⟨0, by simp, ti, (bi 0).1, holds_idle_append V _ _ hi trivial, ?_, .inr ⟨by simp, s', rfl, fun h => by simp [h1] at h⟩⟩
    simp only [List.sum_cons, List.sum_nil]; omega
  · refine ⟨0, by simp, by rw [taken_append, ti, th]; rfl, ?_, ?_, ?_, .inr ⟨by simp, s', rfl, fun _ => by simp [h2]⟩⟩
    · rw [idleBefore_append, (bi 0).1, (bh _).1]; rfl
    · simp only [pending, List.append_assoc]
      exact holds_idle_append V _ _ hi (holds_held_append V p _ _ _ hh ⟨h1, h2⟩ trivial)
    · rw [idles_append, lh]
      simp only [List.sum_cons, List.sum_nil, List.append_nil]; omega
  · have hx : V.xfer q = true := by simp [Stream.xfer, h1, h3]
    refine ⟨1, by simp, ?_, ?_, ?_, ?_, .inl ⟨rfl, ?_, ?_, a, s', rfl, h4⟩⟩
    · rw [taken_append, taken_append, ti, th]; simp [Stream.taken, hx, h2]
    · rw [idleBefore_append, idleBefore_append, (bi 0).1, (bh _).1, trail_append, (bi 0).2, (bh _).2]
      simp [Stream.idleBefore, hx, hn]
    · simp only [pending, List.append_assoc, List.singleton_append]
      exact holds_idle_append V _ _ hi (holds_held_append V p _ _ _ hh ⟨h1, h2⟩ (holds_cons_free V _ _ (.inr h3) trivial))
    · rw [idles_append, idles_append, lh]
      have : idles V [q] = [] := by simp [idles, h1]
      rw [this]
      simp only [List.sum_cons, List.sum_nil, List.append_nil]; omega
    · rw [trail_append, trail_append]; simp [Stream.trail, hx]
    · intro q' hq'
      rw [List.getLast?_append] at hq'
      simp at hq'; rw [← hq']; exact hx

theorem holds_append_free (a b : List (O × I)) (ha : V.Holds a) (hb : V.Holds b)
    (hl : ∀ q, a.getLast? = some q → V.valid q.1 = false ∨ V.ready q.2 = true) : V.Holds (a ++ b) := by
  induction a with
  | nil => exact hb
  | cons r a ih =>
    cases a with
    | nil => exact holds_cons_free V r _ (hl r rfl) hb
    | cons x a =>
      have := ih (holds_tail V _ _ ha) (fun q hq => hl q (by rw [← hq]; simp [List.getLast?_cons_cons]))
      exact ⟨ha.1, this⟩

theorem holds_append_left (a b : List (O × I)) (h : V.Holds (a ++ b)) : V.Holds a := by
  induction a with
  | nil => trivial
  | cons r a ih =>
    have := ih (holds_tail V _ _ h)
    cases a with
    | nil => trivial
    | cons x a => exact ⟨h.1, this⟩

theorem Runs.bind {l l' : List P} {ns ns' : List Nat} {x : M I O α} {f : α → M I O β} {s : Sim I O}
    {post : α → Sim I O → Prop} {post' : β → Sim I O → Prop} (hn : ns.length = l.length)
    (h : Runs V l ns (x s) post) (hf : ∀ a s', post a s' → Runs V l' ns' (f a s') post') :
    Runs V (l ++ l') (ns ++ ns') ((x >>= f) s) post' := by
  obtain ⟨k, hk, h1, h2, h3, h4, h5⟩ := h
  rw [bind_run]
  rcases h5 with ⟨rfl, htr, hlast, a, s', he, hp⟩ | ⟨hlt, s', he, hfl⟩
  · have hx : x s = ((x s).1, .ok a s') := by rw [← he]
    obtain ⟨k', hk', g1, g2, g3, g4, g5⟩ := hf a s' hp
    rw [hx, andThen_ok]
    refine ⟨l.length + k', by simp; omega, ?_, ?_, ?_, ?_, ?_⟩
    · rw [taken_append, h1, g1, List.take_length, List.take_length_add_append]
    · rw [idleBefore_append, h2, htr, g2, ← hn, List.take_length, List.take_length_add_append]
    · simp only [pending, List.append_assoc]
      refine holds_append_free V _ _ (holds_append_left V _ _ h3) g3 (fun q hq => .inr ?_)
      have := hlast q hq
      simp [Stream.xfer] at this
      exact this.2
    · rw [idles_append, List.length_append, List.sum_append]; omega
    · rcases g5 with ⟨rfl, g6, g7, b, s2, g8, g9⟩ | ⟨g5, s2, g6, g7⟩
      · refine .inl ⟨by simp, by rw [trail_append, htr, g6], ?_, b, s2, g8, g9⟩
        intro q hq
        rw [List.getLast?_append] at hq
        cases hg : (f a s').1.getLast? with
        | none => rw [hg] at hq; exact hlast q (by simpa using hq)
        | some q' => rw [hg] at hq; simp at hq; subst hq; exact g7 q' hg
      · refine .inr ⟨by simp; omega, s2, g6, fun h => ?_⟩
        rw [List.getElem?_append_right (by omega), ← g7 h]
        congr 1
        omega
  · have hx : x s = ((x s).1, .blocked s') := by rw [← he]
    have hpend : pending (x s) = (x s).1 ++ [(s'.out, s'.cur)] := by rw [pending, he]; rfl
    rw [hx, andThen_blocked]
    refine ⟨k, by simp; omega, ?_, ?_, ?_, ?_, .inr ⟨by simp; omega, s', rfl, fun h => ?_⟩⟩
    · rw [h1, List.take_append_of_le_length hk]
    · rw [h2, List.take_append_of_le_length (by omega)]
    · rw [hpend] at h3; exact h3
    · rw [List.sum_append]
      exact Nat.le_trans h4 (Nat.le_add_right _ _)
    · rw [List.getElem?_append_left hlt]; exact hfl h

end CocotbBus
