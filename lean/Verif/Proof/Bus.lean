import Verif.Spec.Bus

/-! Lemmas about `Verif.Model.Bus`. -/

namespace CocotbBus
open Spec

section Dict
variable {α β : Type} [DecidableEq α]

theorem dictGet_dictSet (d : List (α × β)) (k k' : α) (v : β) :
    dictGet (dictSet d k v) k' = if k = k' then some v else dictGet d k' := by
  induction d with
  | nil => simp [dictSet, dictGet]
  | cons p r ih =>
    obtain ⟨a, b⟩ := p
    by_cases h : a = k
    · subst h
      simp only [dictSet, if_true, dictGet]
      split <;> simp_all
    · simp only [dictSet, if_neg h, dictGet, ih]
      by_cases h2 : a = k'
      · have : k ≠ k' := fun e => h (by rw [h2, e])
        simp [h2, this]
      · simp [h2]

theorem keys_dictSet (d : List (α × β)) (k : α) (v : β) :
    (dictSet d k v).map Prod.fst = if k ∈ d.map Prod.fst then d.map Prod.fst else d.map Prod.fst ++ [k] := by
  induction d with
  | nil => simp [dictSet]
  | cons p r ih =>
    obtain ⟨a, b⟩ := p
    by_cases h : a = k
    · simp [dictSet, h]
    · have h' : ¬ k = a := fun e => h e.symm
      simp only [dictSet, if_neg h, List.map_cons, ih, List.mem_cons, h', false_or]
      split <;> simp

theorem nodup_dictSet (d : List (α × β)) (k : α) (v : β) (h : (d.map Prod.fst).Nodup) :
    ((dictSet d k v).map Prod.fst).Nodup := by
  rw [keys_dictSet]
  split
  · exact h
  · rename_i hk
    rw [List.nodup_append]
    refine ⟨h, by simp, ?_⟩
    intro a ha b hb
    simp at hb
    subst hb
    exact fun e => hk (e ▸ ha)

theorem mem_keys_dictSet (d : List (α × β)) (k k' : α) (v : β) :
    k' ∈ (dictSet d k v).map Prod.fst ↔ k' = k ∨ k' ∈ d.map Prod.fst := by
  rw [keys_dictSet]
  split
  · rename_i h
    constructor
    · exact Or.inr
    · rintro (e | e)
      · exact e ▸ h
      · exact e
  · simp only [List.mem_append, List.mem_singleton]
    constructor
    · rintro (e | e)
      · exact Or.inr e
      · exact Or.inl e
    · rintro (e | e)
      · exact Or.inr e
      · exact Or.inl e

theorem dictGet_eq_find (d : List (α × β)) (k : α) :
    dictGet d k = (d.find? (fun p => p.1 = k)).map Prod.snd := by
  induction d with
  | nil => rfl
  | cons p r ih =>
    obtain ⟨a, b⟩ := p
    by_cases h : a = k <;> simp [dictGet, h, ih]

theorem dictGet_isSome (d : List (α × β)) (k : α) : (dictGet d k).isSome ↔ k ∈ d.map Prod.fst := by
  induction d with
  | nil => simp [dictGet]
  | cons p r ih =>
    obtain ⟨a, b⟩ := p
    by_cases h : a = k
    · simp [dictGet, h]
    · have h' : ¬ k = a := fun e => h e.symm
      simp only [dictGet, if_neg h, ih, List.map_cons, List.mem_cons, h', false_or]

end Dict

theorem buildDict_list_nodup (l : List String) : ∀ (d : List (String × String)),
    (d.map Prod.fst).Nodup → ((l.foldl (fun d s => dictSet d s s) d).map Prod.fst).Nodup := by
  induction l with
  | nil => intro d h; simpa
  | cons s r ih => intro d h; exact ih _ (nodup_dictSet d s s h)

theorem buildDict_list_keys (l : List String) : ∀ (d : List (String × String)) (k : String),
    k ∈ (l.foldl (fun d s => dictSet d s s) d).map Prod.fst ↔ k ∈ l ∨ k ∈ d.map Prod.fst := by
  induction l with
  | nil => intro d k; simp
  | cons s r ih =>
    intro d k
    rw [List.foldl_cons, ih, mem_keys_dictSet, List.mem_cons]
    constructor
    · rintro (h | h | h)
      · exact Or.inl (Or.inr h)
      · exact Or.inl (Or.inl h)
      · exact Or.inr h
    · rintro ((h | h) | h)
      · exact Or.inr (Or.inl h)
      · exact Or.inl h
      · exact Or.inr (Or.inr h)

theorem dictSet_diag (d : List (String × String)) (s : String) (h : ∀ p ∈ d, p.1 = p.2) :
    ∀ p ∈ dictSet d s s, p.1 = p.2 := by
  induction d with
  | nil => intro p hp; simp [dictSet] at hp; subst hp; rfl
  | cons q r ih =>
    obtain ⟨a, b⟩ := q
    intro p hp
    unfold dictSet at hp
    split at hp
    · rename_i e
      rcases List.mem_cons.1 hp with h1 | h1
      · subst h1; exact e
      · exact h p (List.mem_cons_of_mem _ h1)
    · rcases List.mem_cons.1 hp with h1 | h1
      · subst h1; exact h _ (List.mem_cons_self ..)
      · exact ih (fun p hp => h p (List.mem_cons_of_mem _ hp)) p h1

theorem buildDict_list_diag (l : List String) : ∀ (d : List (String × String)),
    (∀ p ∈ d, p.1 = p.2) → ∀ p ∈ l.foldl (fun d s => dictSet d s s) d, p.1 = p.2 := by
  induction l with
  | nil => intro d h; exact h
  | cons s r ih => intro d h; exact ih _ (dictSet_diag d s h)

theorem mem_build (s : SigSpec) (attr sig : String) :
    (attr, sig) ∈ buildSigAttrDict s ↔ Requests s attr sig := by
  cases s with
  | dict d => rfl
  | list l =>
    simp only [buildSigAttrDict, Requests]
    have hd := buildDict_list_diag l [] (by simp)
    have hk := buildDict_list_keys l []
    constructor
    · intro h
      have e : attr = sig := hd _ h
      refine ⟨e, ?_⟩
      have := (hk attr).1 (List.mem_map.2 ⟨_, h, rfl⟩)
      simpa [e] using this
    · rintro ⟨e, h⟩
      subst e
      have := (hk attr).2 (Or.inl h)
      obtain ⟨⟨a, b⟩, hm, ha⟩ := List.mem_map.1 this
      have hab : a = b := hd _ hm
      have ha : a = attr := ha
      subst ha; subst hab
      exact hm

theorem nodup_build (s : SigSpec) (h : WellFormed s) : ((buildSigAttrDict s).map Prod.fst).Nodup := by
  cases s with
  | dict d => exact h
  | list l => exact buildDict_list_nodup l [] (by simp)

theorem fullName_eq (name : Option String) (sep sig : String) :
    fullName name sep sig = netName name sep sig := by
  cases name with
  | none => simp [fullName, netName]
  | some n => by_cases h : n = "" <;> simp [fullName, netName, h]

theorem attrVal_eq (b : Bus) (attr : String) : attrVal b attr = dictGet b.signals attr :=
  (dictGet_eq_find _ _).symm

theorem caseInsens_some (fold : String → String) (e : Entity) (t : String) (h : Handle) :
    caseInsensGetattr fold e t = some h ↔ IsFirstMatch fold e.members t h := by
  unfold caseInsensGetattr IsFirstMatch
  constructor
  · intro hh
    split at hh
    · rename_i m hm
      have hh : m.2 = h := by simpa using hh
      rw [List.find?_eq_some_iff_append] at hm
      obtain ⟨h1, pre, post, h2, h3⟩ := hm
      obtain ⟨m1, m2⟩ := m
      simp at hh h1
      subst hh
      refine ⟨pre, m1, post, h2, h1, ?_⟩
      intro m hm
      simpa using h3 m hm
    · cases hh
  · rintro ⟨pre, n, post, h1, h2, h3⟩
    have : e.members.find? (fun m => fold m.1 == fold t) = some (n, h) := by
      rw [List.find?_eq_some_iff_append]
      refine ⟨by simpa using h2, pre, post, h1, ?_⟩
      intro m hm
      simpa using h3 m hm
    rw [this]

theorem caseInsens_none (fold : String → String) (e : Entity) (t : String) :
    caseInsensGetattr fold e t = none ↔ Absent fold e.members t := by
  unfold caseInsensGetattr Absent
  constructor
  · intro hh
    split at hh
    · cases hh
    · rename_i hm
      simpa [List.find?_eq_none] using hm
  · intro h
    have : e.members.find? (fun m => fold m.1 == fold t) = none := by
      simpa [List.find?_eq_none] using h
    rw [this]

theorem exact_error (e : Entity) (t : String) :
    exactGetattr e t = .error .attributeError ↔ t ∉ e.members.map Prod.fst := by
  unfold exactGetattr
  split
  · rename_i m hm
    have h1 := List.mem_of_find?_eq_some hm
    have h2 := List.find?_some hm
    simp at h2
    simp only [reduceCtorEq, List.mem_map, not_exists, false_iff]
    exact fun h => h m ⟨h1, h2⟩
  · rename_i hm
    simp only [List.find?_eq_none] at hm
    simp only [true_iff, List.mem_map, not_exists]
    rintro m ⟨h1, h2⟩
    exact hm m h1 (by simp [h2])

/-- The handle part of `addSignal`. -/
def resolve (fold : String → String) (e : Entity) (t : String) (idx : Option Int) (ci : Bool) :
    Except PyErr (Option Handle) := do
  let handle ← if ci then .ok (caseInsensGetattr fold e t) else (exactGetattr e t).map some
  match idx with
  | none => .ok handle
  | some i =>
    match handle with
    | none => .error .typeError
    | some h => (e.index h i).map some

theorem addSignal_eq (fold : String → String) (e : Entity) (b : Bus) (a t : String) (idx : Option Int) (ci : Bool) :
    addSignal fold e b a t idx ci = (resolve fold e t idx ci).map (fun h => ⟨dictSet b.signals a h⟩) := by
  unfold addSignal resolve
  simp only [bind, Except.bind]
  cases ci <;> simp only [if_true, Bool.false_eq_true, if_false]
  · cases exactGetattr e t with
    | error x => rfl
    | ok h =>
      cases idx with
      | none => rfl
      | some i => cases hi : e.index h i <;> simp [hi, Except.map]
  · cases idx with
    | none => rfl
    | some i =>
      cases caseInsensGetattr fold e t with
      | none => rfl
      | some h => cases hi : e.index h i <;> simp [hi, Except.map]

section Loops
variable (fold : String → String) (e : Entity) (name : Option String) (sep : String) (idx : Option Int) (ci : Bool)

theorem addRequired_cons (a s : String) (r : List (String × String)) (b : Bus) :
    addRequired fold e name sep idx ci ((a, s) :: r) b =
      match resolve fold e (netName name sep s) idx ci with
      | .ok h => addRequired fold e name sep idx ci r ⟨dictSet b.signals a h⟩
      | .error x => .error x := by
  rw [addRequired, addSignal_eq, fullName_eq]
  cases resolve fold e (netName name sep s) idx ci <;> rfl

theorem addOptional_eq (l : List (String × String)) (b : Bus) :
    addOptional fold e name sep idx ci l b =
      addRequired fold e name sep idx ci
        (l.filter (fun p => (caseInsensGetattr fold e (netName name sep p.2)).isSome)) b := by
  induction l generalizing b with
  | nil => rfl
  | cons p r ih =>
    obtain ⟨a, s⟩ := p
    unfold addOptional
    rw [fullName_eq, List.filter_cons]
    by_cases h : (caseInsensGetattr fold e (netName name sep s)).isSome
    · rw [if_pos h, if_pos h, addRequired_cons, addSignal_eq]
      cases resolve fold e (netName name sep s) idx ci with
      | error x => rfl
      | ok v => exact ih _
    · rw [if_neg h, if_neg h]
      exact ih _

theorem addRequired_isOk (l : List (String × String)) (b : Bus) :
    (∃ b', addRequired fold e name sep idx ci l b = .ok b') ↔
      ∀ p ∈ l, ∃ v, resolve fold e (netName name sep p.2) idx ci = .ok v := by
  induction l generalizing b with
  | nil => simp [addRequired]
  | cons p r ih =>
    obtain ⟨a, s⟩ := p
    rw [addRequired_cons]
    cases h : resolve fold e (netName name sep s) idx ci with
    | error x =>
      simp [h]
    | ok v =>
      simp only [ih, List.forall_mem_cons, h]
      simp

theorem addRequired_get (l : List (String × String)) (b b' : Bus)
    (hb : addRequired fold e name sep idx ci l b = .ok b') :
    (∀ k, k ∉ l.map Prod.fst → dictGet b'.signals k = dictGet b.signals k) ∧
    ((l.map Prod.fst).Nodup → ∀ k s, (k, s) ∈ l → ∃ v, resolve fold e (netName name sep s) idx ci = .ok v ∧
      dictGet b'.signals k = some v) := by
  induction l generalizing b with
  | nil => cases hb; simp
  | cons p r ih =>
    obtain ⟨a, s⟩ := p
    rw [addRequired_cons] at hb
    cases hr : resolve fold e (netName name sep s) idx ci with
    | error x => rw [hr] at hb; cases hb
    | ok v =>
      rw [hr] at hb
      obtain ⟨i1, i2⟩ := ih _ hb
      constructor
      · intro k hk
        simp only [List.map_cons, List.mem_cons, not_or] at hk
        rw [i1 k hk.2, dictGet_dictSet, if_neg (fun e => hk.1 e.symm)]
      · intro hn k s' hm
        simp only [List.map_cons, List.nodup_cons] at hn
        rcases List.mem_cons.1 hm with h1 | h1
        · cases h1
          refine ⟨v, hr, ?_⟩
          rw [i1 _ hn.1, dictGet_dictSet, if_pos rfl]
        · exact i2 hn.2 k s' h1

theorem addRequired_nodup (l : List (String × String)) (b b' : Bus)
    (hn : (b.signals.map Prod.fst).Nodup)
    (hb : addRequired fold e name sep idx ci l b = .ok b') : (b'.signals.map Prod.fst).Nodup := by
  induction l generalizing b with
  | nil => cases hb; exact hn
  | cons p r ih =>
    obtain ⟨a, s⟩ := p
    rw [addRequired_cons] at hb
    cases hr : resolve fold e (netName name sep s) idx ci with
    | error x => rw [hr] at hb; cases hb
    | ok v =>
      rw [hr] at hb
      exact ih _ (nodup_dictSet _ _ _ hn) hb

end Loops

theorem key_not_mem (s : SigSpec) (k : String) (h : ∀ s', ¬ Requests s k s') :
    k ∉ (buildSigAttrDict s).map Prod.fst := by
  intro hm
  obtain ⟨⟨a, t⟩, h1, h2⟩ := List.mem_map.1 hm
  simp at h2
  subst h2
  exact h t ((mem_build s a t).1 h1)

section Init
variable (fold : String → String) (e : Entity) (name : Option String) (sg op : SigSpec) (sep : String)
  (idx : Option Int) (ci : Bool)

/-- `Bus.__init__` succeeds iff all lookups do. -/
theorem init_isOk :
    (∃ b, Bus.init fold e name sg op sep ci idx = .ok b) ↔
      (∀ k s, Requests sg k s → ∃ v, resolve fold e (netName name sep s) idx ci = .ok v) ∧
      (∀ k s, Requests op k s → Absent fold e.members (netName name sep s) ∨
        ∃ v, resolve fold e (netName name sep s) idx ci = .ok v) := by
  unfold Bus.init
  have h1 := addRequired_isOk fold e name sep idx ci (buildSigAttrDict sg) ⟨[]⟩
  have hs : (∀ p ∈ buildSigAttrDict sg, ∃ v, resolve fold e (netName name sep p.2) idx ci = .ok v) ↔
      (∀ k s, Requests sg k s → ∃ v, resolve fold e (netName name sep s) idx ci = .ok v) := by
    constructor
    · intro h k s hks
      exact h _ ((mem_build sg k s).2 hks)
    · intro h p hp
      exact h p.1 p.2 ((mem_build sg p.1 p.2).1 hp)
  have ho : (∀ p ∈ (buildSigAttrDict op).filter (fun p => (caseInsensGetattr fold e (netName name sep p.2)).isSome),
        ∃ v, resolve fold e (netName name sep p.2) idx ci = .ok v) ↔
      (∀ k s, Requests op k s → Absent fold e.members (netName name sep s) ∨
        ∃ v, resolve fold e (netName name sep s) idx ci = .ok v) := by
    constructor
    · intro h k s hks
      by_cases hc : (caseInsensGetattr fold e (netName name sep s)).isSome
      · exact Or.inr (h (k, s) (List.mem_filter.2 ⟨(mem_build op k s).2 hks, hc⟩))
      · left
        rw [← caseInsens_none]
        simpa using hc
    · intro h p hp
      obtain ⟨hp1, hp2⟩ := List.mem_filter.1 hp
      rcases h p.1 p.2 ((mem_build op p.1 p.2).1 hp1) with h' | h'
      · rw [← caseInsens_none] at h'
        simp [h'] at hp2
      · exact h'
  rw [← ho, ← hs, ← h1]
  cases hr : addRequired fold e name sep idx ci (buildSigAttrDict sg) ⟨[]⟩ with
  | error x =>
    constructor
    · rintro ⟨b, hb⟩; cases hb
    · rintro ⟨⟨b, hb⟩, _⟩; cases hb
  | ok b0 =>
    simp only [bind, Except.bind, addOptional_eq, addRequired_isOk]
    simp

/-- Attributes of a successfully constructed bus, in every mode. -/
theorem init_attr (wsg : WellFormed sg) (wop : WellFormed op) (b : Bus)
    (hb : Bus.init fold e name sg op sep ci idx = .ok b) (k : String) :
    (∀ s, Requests sg k s → (∀ s', ¬ Requests op k s') →
        ∃ v, resolve fold e (netName name sep s) idx ci = .ok v ∧ dictGet b.signals k = some v) ∧
    (∀ s, Requests op k s → ¬ Absent fold e.members (netName name sep s) →
        ∃ v, resolve fold e (netName name sep s) idx ci = .ok v ∧ dictGet b.signals k = some v) ∧
    (∀ s, Requests op k s → (∀ s', ¬ Requests sg k s') → Absent fold e.members (netName name sep s) →
        dictGet b.signals k = none) ∧
    ((∀ s, ¬ Requests sg k s) → (∀ s, ¬ Requests op k s) → dictGet b.signals k = none) := by
  unfold Bus.init at hb
  cases hr : addRequired fold e name sep idx ci (buildSigAttrDict sg) ⟨[]⟩ with
  | error x => rw [hr] at hb; cases hb
  | ok b0 =>
    rw [hr] at hb
    simp only [bind, Except.bind, addOptional_eq] at hb
    obtain ⟨r1, r2⟩ := addRequired_get _ _ _ _ _ _ _ _ _ hr
    obtain ⟨o1, o2⟩ := addRequired_get _ _ _ _ _ _ _ _ _ hb
    have hsub : ((buildSigAttrDict op).filter (fun p => (caseInsensGetattr fold e (netName name sep p.2)).isSome)).Sublist
        (buildSigAttrDict op) := List.filter_sublist
    have hon : (((buildSigAttrDict op).filter (fun p => (caseInsensGetattr fold e (netName name sep p.2)).isSome)).map
        Prod.fst).Nodup := List.Nodup.sublist (hsub.map _) (nodup_build op wop)
    have hnin (h : ∀ s', ¬ Requests op k s') : k ∉ ((buildSigAttrDict op).filter
        (fun p => (caseInsensGetattr fold e (netName name sep p.2)).isSome)).map Prod.fst :=
      fun hm => key_not_mem op k h ((hsub.map _).subset hm)
    refine ⟨?_, ?_, ?_, ?_⟩
    · intro s hs hno
      obtain ⟨v, hv1, hv2⟩ := r2 (nodup_build sg wsg) k s ((mem_build sg k s).2 hs)
      exact ⟨v, hv1, by rw [o1 k (hnin hno), hv2]⟩
    · intro s hs hna
      refine o2 hon k s (List.mem_filter.2 ⟨(mem_build op k s).2 hs, ?_⟩)
      rw [← caseInsens_none] at hna
      exact Option.isSome_iff_ne_none.2 hna
    · intro s hs hno ha
      rw [o1 k, r1 k (key_not_mem sg k hno)]
      · rfl
      · intro hm
        obtain ⟨⟨a, t⟩, h1, h2⟩ := List.mem_map.1 hm
        simp at h2
        subst h2
        obtain ⟨h3, h4⟩ := List.mem_filter.1 h1
        have hd := nodup_build op wop
        have : t = s := by
          have := (mem_build op a s).2 hs
          have e1 : ∀ (d : List (String × String)), (d.map Prod.fst).Nodup → (a, t) ∈ d → (a, s) ∈ d → t = s := by
            intro d
            induction d with
            | nil => intro _ h; cases h
            | cons q r ih =>
              intro hn m1 m2
              simp only [List.map_cons, List.nodup_cons] at hn
              rcases List.mem_cons.1 m1 with e1 | e1 <;> rcases List.mem_cons.1 m2 with e2 | e2
              · rw [← e1] at e2; cases e2; rfl
              · subst e1; exact absurd (List.mem_map.2 ⟨_, e2, rfl⟩) hn.1
              · subst e2; exact absurd (List.mem_map.2 ⟨_, e1, rfl⟩) hn.1
              · exact ih hn.2 e1 e2
          exact e1 _ hd h3 this
        subst this
        rw [← caseInsens_none] at ha
        simp [ha] at h4
    · intro h1 h2
      rw [o1 k (hnin h2), r1 k (key_not_mem sg k h1)]
      rfl

theorem init_nodup (b : Bus) (hb : Bus.init fold e name sg op sep ci idx = .ok b) :
    (b.signals.map Prod.fst).Nodup := by
  unfold Bus.init at hb
  cases hr : addRequired fold e name sep idx ci (buildSigAttrDict sg) ⟨[]⟩ with
  | error x => rw [hr] at hb; cases hb
  | ok b0 =>
    rw [hr] at hb
    simp only [bind, Except.bind, addOptional_eq] at hb
    exact addRequired_nodup _ _ _ _ _ _ _ _ _ (addRequired_nodup _ _ _ _ _ _ _ _ _ (by simp) hr) hb

end Init

section Access
variable {V : Type}

theorem drive_nonstrict_ok (obj : String → Option V) (l : List (String × Option Handle)) (st : Store V)
    (hb : ∀ p ∈ l, p.2 ≠ none) : (drive false obj l st).2 = none := by
  induction l generalizing st with
  | nil => rfl
  | cons p r ih =>
    obtain ⟨a, h⟩ := p
    unfold drive
    cases ho : obj a with
    | none => simpa using ih st (fun p hp => hb p (List.mem_cons_of_mem _ hp))
    | some v =>
      cases h with
      | none => exact absurd rfl (hb (a, none) (List.mem_cons_self ..))
      | some h => exact ih _ (fun p hp => hb p (List.mem_cons_of_mem _ hp))

/-- Handles not bound to an attribute of `obj` are untouched. -/
theorem drive_frame (strict : Bool) (obj : String → Option V) (l : List (String × Option Handle)) (st : Store V)
    (h : Handle) (hh : ∀ a v, (a, some h) ∈ l → obj a ≠ some v) : (drive strict obj l st).1 h = st h := by
  induction l generalizing st with
  | nil => rfl
  | cons p r ih =>
    obtain ⟨a, hd⟩ := p
    have hr : ∀ a v, (a, some h) ∈ r → obj a ≠ some v := fun a v hm => hh a v (List.mem_cons_of_mem _ hm)
    unfold drive
    cases ho : obj a with
    | none =>
      cases strict with
      | true => rfl
      | false => exact ih st hr
    | some v =>
      cases hd with
      | none => rfl
      | some h' =>
        simp only
        rw [ih _ hr]
        unfold Store.set
        rw [if_neg]
        intro e
        subst e
        exact hh a v (List.mem_cons_self ..) ho

theorem drive_value (strict : Bool) (obj : String → Option V) (l : List (String × Option Handle)) (st : Store V)
    (hd : (l.map Prod.snd).Nodup) (a : String) (h : Handle) (v : V) (hm : (a, some h) ∈ l) (ho : obj a = some v)
    (hok : (drive strict obj l st).2 = none) : (drive strict obj l st).1 h = v := by
  induction l generalizing st with
  | nil => cases hm
  | cons p r ih =>
    obtain ⟨a', hd'⟩ := p
    simp only [List.map_cons, List.nodup_cons] at hd
    rcases List.mem_cons.1 hm with h1 | h1
    · cases h1
      unfold drive
      rw [ho]
      simp only
      rw [drive_frame]
      · simp [Store.set]
      · intro a2 v2 hm2
        exact absurd (List.mem_map.2 ⟨_, hm2, rfl⟩) hd.1
    · unfold drive at hok ⊢
      cases ho' : obj a' with
      | none =>
        cases strict with
        | true => simp [ho'] at hok
        | false => simp only [ho'] at hok; exact ih st hd.2 h1 hok
      | some v' =>
        cases hd' with
        | none => simp [ho'] at hok
        | some h' => simp only [ho'] at hok; exact ih _ hd.2 h1 hok

theorem drive_strict (obj : String → Option V) (l : List (String × Option Handle)) (st : Store V)
    (hb : ∀ p ∈ l, p.2 ≠ none) :
    ((drive true obj l st).2 = none ∨ (drive true obj l st).2 = some .attributeError) ∧
    ((drive true obj l st).2 = none ↔ ∀ p ∈ l, obj p.1 ≠ none) := by
  induction l generalizing st with
  | nil => simp [drive]
  | cons p r ih =>
    obtain ⟨a, h⟩ := p
    have hr : ∀ p ∈ r, p.2 ≠ none := fun p hp => hb p (List.mem_cons_of_mem _ hp)
    unfold drive
    cases ho : obj a with
    | none => simp [ho]
    | some v =>
      cases h with
      | none => exact absurd rfl (hb (a, none) (List.mem_cons_self ..))
      | some h =>
        refine ⟨(ih (st.set h v) hr).1, ?_⟩
        simp only [List.forall_mem_cons, ho]
        simp only [ne_eq, reduceCtorEq, not_false_eq_true, true_and]
        exact (ih (st.set h v) hr).2

/-- A strict drive stops at the first missing attribute, after driving what comes before. -/
theorem drive_strict_prefix (obj : String → Option V) (pre post : List (String × Option Handle)) (a : String)
    (hd : Option Handle) (st : Store V) (hb : ∀ p ∈ pre, p.2 ≠ none) (hp : ∀ p ∈ pre, obj p.1 ≠ none)
    (ha : obj a = none) :
    drive true obj (pre ++ (a, hd) :: post) st = ((drive false obj pre st).1, some .attributeError) := by
  induction pre generalizing st with
  | nil => simp [drive, ha]
  | cons p r ih =>
    obtain ⟨a', h⟩ := p
    have h1 := hb (a', h) (List.mem_cons_self ..)
    have h2 := hp (a', h) (List.mem_cons_self ..)
    cases h with
    | none => exact absurd rfl h1
    | some h =>
      cases ho : obj a' with
      | none => exact absurd ho h2
      | some v =>
        rw [List.cons_append]
        unfold drive
        simp only [ho]
        exact ih _ (fun p hp => hb p (List.mem_cons_of_mem _ hp)) (fun p hp' => hp p (List.mem_cons_of_mem _ hp'))

theorem captureList_ok (l : List (String × Option Handle)) (st : Store V) (hb : ∀ p ∈ l, p.2 ≠ none) :
    ∃ c, captureList l st = .ok c ∧ c.map Prod.fst = l.map Prod.fst ∧
      ∀ a h, (a, some h) ∈ l → (a, st h) ∈ c := by
  induction l with
  | nil => exact ⟨[], rfl, rfl, by simp⟩
  | cons p r ih =>
    obtain ⟨a, h⟩ := p
    obtain ⟨c, h1, h2, h3⟩ := ih (fun p hp => hb p (List.mem_cons_of_mem _ hp))
    cases h with
    | none => exact absurd rfl (hb (a, none) (List.mem_cons_self ..))
    | some h =>
      refine ⟨(a, st h) :: c, by simp [captureList, h1, bind, Except.bind], by simp [h2], ?_⟩
      intro a' h' hm
      rcases List.mem_cons.1 hm with e | e
      · cases e; exact List.mem_cons_self ..
      · exact List.mem_cons_of_mem _ (h3 a' h' e)

theorem dictGet_of_mem {β : Type} (d : List (String × β)) (hn : (d.map Prod.fst).Nodup) (k : String) (v : β)
    (h : (k, v) ∈ d) : dictGet d k = some v := by
  induction d with
  | nil => cases h
  | cons p r ih =>
    obtain ⟨a, b⟩ := p
    simp only [List.map_cons, List.nodup_cons] at hn
    rcases List.mem_cons.1 h with e | e
    · cases e; simp [dictGet]
    · have : a ≠ k := fun e' => hn.1 (e' ▸ List.mem_map.2 ⟨_, e, rfl⟩)
      simp only [dictGet, if_neg this]
      exact ih hn.2 e

theorem mem_of_dictGet {β : Type} (d : List (String × β)) (k : String) (v : β)
    (h : dictGet d k = some v) : (k, v) ∈ d := by
  induction d with
  | nil => cases h
  | cons p r ih =>
    obtain ⟨a, b⟩ := p
    unfold dictGet at h
    split at h
    · rename_i e; cases h; subst e; exact List.mem_cons_self ..
    · exact List.mem_cons_of_mem _ (ih h)

theorem sample_frame (g strict : Bool) (st : Store V) (l : List (String × Option Handle))
    (obj : String → Option (ObjAttr V)) (a : String) (h : a ∉ l.map Prod.fst) :
    (sample g strict st l obj).1 a = obj a := by
  induction l generalizing obj with
  | nil => rfl
  | cons p r ih =>
    obtain ⟨a', hd⟩ := p
    simp only [List.map_cons, List.mem_cons, not_or] at h
    unfold sample
    cases ho : obj a' with
    | none =>
      cases strict with
      | true => rfl
      | false => exact ih obj h.2
    | some old =>
      cases hd with
      | none => rfl
      | some hh =>
        simp only
        rw [ih _ h.2, if_neg h.1]

theorem sample_none (g strict : Bool) (st : Store V) (l : List (String × Option Handle))
    (obj : String → Option (ObjAttr V)) (a : String) (h : obj a = none) :
    (sample g strict st l obj).1 a = none := by
  induction l generalizing obj with
  | nil => exact h
  | cons p r ih =>
    obtain ⟨a', hd⟩ := p
    unfold sample
    cases ho : obj a' with
    | none =>
      cases strict with
      | true => exact h
      | false => exact ih obj h
    | some old =>
      cases hd with
      | none => exact h
      | some hh =>
        simp only
        apply ih
        have : a ≠ a' := fun e => by rw [e, ho] at h; cases h
        simp [this, h]

theorem sample_value (g strict : Bool) (st : Store V) (l : List (String × Option Handle))
    (hn : (l.map Prod.fst).Nodup) (obj : String → Option (ObjAttr V)) (a : String) (h : Handle)
    (hm : (a, some h) ∈ l) (old : ObjAttr V) (ho : obj a = some old) (hok : (sample g strict st l obj).2 = none) :
    ∃ new, (sample g strict st l obj).1 a = some new ∧ new.val = st h := by
  induction l generalizing obj with
  | nil => cases hm
  | cons p r ih =>
    obtain ⟨a', hd⟩ := p
    simp only [List.map_cons, List.nodup_cons] at hn
    rcases List.mem_cons.1 hm with e | e
    · cases e
      unfold sample
      simp only [ho]
      rw [sample_frame _ _ _ _ _ _ hn.1]
      simp only [if_true, Option.some.injEq]
      refine ⟨_, rfl, ?_⟩
      cases old with
      | plain _ => rfl
      | binstr _ => cases g <;> rfl
    · have hne : a ≠ a' := fun e' => hn.1 (e' ▸ List.mem_map.2 ⟨_, e, rfl⟩)
      unfold sample at hok ⊢
      cases ho' : obj a' with
      | none =>
        cases strict with
        | true => simp [ho'] at hok
        | false => simp only [ho'] at hok; exact ih hn.2 obj e ho hok
      | some old' =>
        cases hd with
        | none => simp [ho'] at hok
        | some hh =>
          simp only [ho'] at hok
          exact ih hn.2 _ e (by simp [hne, ho]) hok

theorem sample_nonstrict_ok (g : Bool) (st : Store V) (l : List (String × Option Handle))
    (obj : String → Option (ObjAttr V)) (hb : ∀ p ∈ l, p.2 ≠ none) :
    (sample g false st l obj).2 = none := by
  induction l generalizing obj with
  | nil => rfl
  | cons p r ih =>
    obtain ⟨a', hd⟩ := p
    unfold sample
    cases ho : obj a' with
    | none => exact ih obj (fun p hp => hb p (List.mem_cons_of_mem _ hp))
    | some old =>
      cases hd with
      | none => exact absurd rfl (hb (a', none) (List.mem_cons_self ..))
      | some hh => exact ih _ (fun p hp => hb p (List.mem_cons_of_mem _ hp))

theorem sample_strict (g : Bool) (st : Store V) (l : List (String × Option Handle))
    (hn : (l.map Prod.fst).Nodup) (obj : String → Option (ObjAttr V)) (hb : ∀ p ∈ l, p.2 ≠ none) :
    ((sample g true st l obj).2 = none ∨ (sample g true st l obj).2 = some .attributeError) ∧
    ((sample g true st l obj).2 = none ↔ ∀ p ∈ l, obj p.1 ≠ none) := by
  induction l generalizing obj with
  | nil => simp [sample]
  | cons p r ih =>
    obtain ⟨a, h⟩ := p
    simp only [List.map_cons, List.nodup_cons] at hn
    have hr : ∀ p ∈ r, p.2 ≠ none := fun p hp => hb p (List.mem_cons_of_mem _ hp)
    unfold sample
    cases ho : obj a with
    | none => simp [ho]
    | some v =>
      cases h with
      | none => exact absurd rfl (hb (a, none) (List.mem_cons_self ..))
      | some h =>
        refine ⟨(ih hn.2 _ hr).1, ?_⟩
        simp only [List.forall_mem_cons, ho]
        simp only [ne_eq, reduceCtorEq, not_false_eq_true, true_and]
        rw [(ih hn.2 _ hr).2]
        constructor
        · intro hh p hp
          have := hh p hp
          by_cases e : p.1 = a
          · exact absurd (e ▸ List.mem_map.2 ⟨p, hp, rfl⟩) hn.1
          · simpa [e] using this
        · intro hh p hp
          by_cases e : p.1 = a
          · simp [e]
          · simpa [e] using hh p hp

end Access

end CocotbBus
