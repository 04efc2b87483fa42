import Verif.Model.BusNames
import Verif.Proof.Bus

/-!
# Attribute names of a `Bus`
-/

namespace CocotbBus

/-- What holds of every object under construction. -/
structure BusObj.Inv (o : BusObj) : Prop where
  sig : dictGet o.attrs "_signals" = some .sigDict
  attr : ∀ k, k ≠ "_entity" → k ≠ "_name" → k ≠ "_signals" → dictGet o.attrs k = (dictGet o.signals k).map .handle
  bound : ∀ k v, dictGet o.signals k = some v → dictGet o.attrs k = some (.handle v)

theorem BusObj.Inv.getSig {o : BusObj} (h : o.Inv) : o.getattr "_signals" = .ok .sigDict := by rw [BusObj.getattr, h.sig]

/-- The last part of `_add_signal`: setting the attribute and entering it. -/
theorem Inv_set {o o' : BusObj} {attr : String} {v : Option Handle} (h : o.Inv)
    (hs : o.enter attr v = .ok o') :
    o'.Inv ∧ attr ≠ "_signals" ∧ attr ∉ unsettable ∧ o' = ⟨dictSet o.attrs attr (.handle v), dictSet o.signals attr v⟩ := by
  by_cases hu : attr ∈ unsettable
  · simp only [BusObj.enter, BusObj.setattr, if_pos hu] at hs; cases hs
  · simp only [BusObj.enter, BusObj.setattr, if_neg hu] at hs
    replace hs : (do
        match ← BusObj.getattr { o with attrs := dictSet o.attrs attr (.handle v) } attr with
        | .handle v' =>
          match ← BusObj.getattr { o with attrs := dictSet o.attrs attr (.handle v) } "_signals" with
          | .sigDict => Except.ok ({ attrs := dictSet o.attrs attr (.handle v), signals := dictSet o.signals attr v' } : BusObj)
          | _ => .error .typeError
        | _ => .error .typeError : Except PyErr BusObj) = .ok o' := hs
    have h1 : BusObj.getattr { o with attrs := dictSet o.attrs attr (.handle v) } attr = .ok (.handle v) := by
      simp [BusObj.getattr, dictGet_dictSet]
    rw [h1] at hs
    replace hs : (do
          match ← BusObj.getattr { o with attrs := dictSet o.attrs attr (.handle v) } "_signals" with
          | .sigDict => Except.ok ({ attrs := dictSet o.attrs attr (.handle v), signals := dictSet o.signals attr v } : BusObj)
          | _ => .error .typeError : Except PyErr BusObj) = .ok o' := hs
    by_cases ha : attr = "_signals"
    · subst ha
      rw [h1] at hs; cases hs
    · have h2 : BusObj.getattr { o with attrs := dictSet o.attrs attr (.handle v) } "_signals" = .ok .sigDict := by
        simp [BusObj.getattr, dictGet_dictSet, ha, h.sig]
      rw [h2] at hs
      cases hs
      refine ⟨⟨?_, ?_, ?_⟩, ha, hu, rfl⟩
      · simp [dictGet_dictSet, ha, h.sig]
      · intro k h1 h2 h3
        simp only [dictGet_dictSet]
        by_cases hk : attr = k
        · simp [hk]
        · simp only [if_neg hk]; exact h.attr k h1 h2 h3
      · intro k v' hv
        simp only [dictGet_dictSet] at hv ⊢
        by_cases hk : attr = k
        · simp only [if_pos hk] at hv ⊢; cases hv; rfl
        · simp only [if_neg hk] at hv ⊢; exact h.bound k v' hv

theorem Except.bind_ok_inv {ε α β : Type} {x : Except ε α} {f : α → Except ε β} {b : β} (h : x.bind f = .ok b) :
    ∃ a, x = .ok a ∧ f a = .ok b := by
  cases x with
  | error e => cases h
  | ok a => exact ⟨a, rfl, h⟩

theorem addSignalN_inv {fold : String → String} {w : Design} {o o' : BusObj} {attr signame : String} {idx : Option Int} {ci : Bool}
    (h : o.Inv) (hs : addSignalN fold w o attr signame idx ci = .ok o') :
    o'.Inv ∧ attr ≠ "_signals" ∧ ∃ v, o' = ⟨dictSet o.attrs attr (.handle v), dictSet o.signals attr v⟩ := by
  unfold addSignalN at hs
  obtain ⟨_, -, hs⟩ := Except.bind_ok_inv hs
  obtain ⟨e, -, hs⟩ := Except.bind_ok_inv hs
  obtain ⟨v, -, hs⟩ := Except.bind_ok_inv hs
  obtain ⟨v', -, hs⟩ := Except.bind_ok_inv hs
  obtain ⟨h1, h2, -, h4⟩ := Inv_set h hs
  exact ⟨h1, h2, v', h4⟩

theorem addRequiredN_inv {fold : String → String} {w : Design} {name : Option String} {sep : String} {idx : Option Int} {ci : Bool} :
    ∀ (l : List (String × String)) (o o' : BusObj), o.Inv → addRequiredN fold w name sep idx ci l o = .ok o' → o'.Inv
  | [], o, o', h, hs => by cases hs; exact h
  | (attr, sig) :: r, o, o', h, hs => by
    simp only [addRequiredN] at hs
    obtain ⟨o1, h1, hs⟩ := Except.bind_ok_inv hs
    exact addRequiredN_inv r o1 o' (addSignalN_inv h h1).1 hs

theorem addOptionalN_inv {fold : String → String} {w : Design} {root : Handle} {name : Option String} {sep : String} {idx : Option Int} {ci : Bool} :
    ∀ (l : List (String × String)) (o o' : BusObj), o.Inv → addOptionalN fold w root name sep idx ci l o = .ok o' → o'.Inv
  | [], o, o', h, hs => by cases hs; exact h
  | (attr, sig) :: r, o, o', h, hs => by
    simp only [addOptionalN] at hs
    obtain ⟨_, -, hs⟩ := Except.bind_ok_inv hs
    obtain ⟨_, -, hs⟩ := Except.bind_ok_inv hs
    obtain ⟨o1, h1, hs⟩ := Except.bind_ok_inv hs
    refine addOptionalN_inv r o1 o' ?_ hs
    split at h1
    · exact (addSignalN_inv h h1).1
    · cases h1; exact h

theorem busInit_inv {root : Handle} : BusObj.Inv ⟨[("_entity", .handle (some root)), ("_name", .text), ("_signals", .sigDict)], []⟩ := by
  refine ⟨rfl, ?_, ?_⟩
  · intro k h1 h2 h3
    simp [dictGet, Ne.symm h1, Ne.symm h2, Ne.symm h3]
  · intro k v h; cases h

theorem BusObj.init_inv {fold : String → String} {w : Design} {root : Handle} {name : Option String} {signals optional : SigSpec} {sep : String}
    {ci : Bool} {idx : Option Int} {o : BusObj} (h : BusObj.init fold w root name signals optional sep ci idx = .ok o) : o.Inv := by
  simp only [BusObj.init] at h
  obtain ⟨o1, h1, h⟩ := Except.bind_ok_inv h
  exact addOptionalN_inv _ _ _ (addRequiredN_inv _ _ _ busInit_inv h1) h

theorem BusObj.Inv.callable {o : BusObj} (h : o.Inv) {m : String} (hm : m ∈ ["drive", "capture", "sample"]) :
    o.callable m = if (dictGet o.signals m).isSome then .error .typeError else .ok () := by
  have hne : m ≠ "_entity" ∧ m ≠ "_name" ∧ m ≠ "_signals" ∧ m ∈ busMethods := by
    simp only [List.mem_cons, List.not_mem_nil, or_false] at hm
    rcases hm with rfl | rfl | rfl <;> decide
  unfold BusObj.callable BusObj.getattr
  rw [h.attr m hne.1 hne.2.1 hne.2.2.1]
  cases dictGet o.signals m with
  | none => simp [hne.2.2.2]; rfl
  | some v => rfl

theorem BusObj.Inv.items {o : BusObj} (h : o.Inv) : o.items = .ok o.signals := by
  unfold BusObj.items; rw [h.getSig]; rfl

/-! ### Names that do not clash: the model without attribute lookup -/

/-- Names that the constructor itself uses, and names Python does not let one set. -/
def busReserved : List String := ["_entity", "_signals", "_add_signal", "_caseInsensGetattr"] ++ unsettable

structure BusObj.Rel (root : Handle) (o : BusObj) (b : Bus) : Prop where
  inv : o.Inv
  eq : o.signals = b.signals
  ent : dictGet o.attrs "_entity" = some (.handle (some root))
  m1 : dictGet o.attrs "_add_signal" = none
  m2 : dictGet o.attrs "_caseInsensGetattr" = none

/-- Both succeed with related objects, or both raise the same. -/
def relE (root : Handle) (x : Except PyErr BusObj) (y : Except PyErr Bus) : Prop :=
  match x, y with
  | .ok o, .ok b => o.Rel root b
  | .error e, .error e' => e = e'
  | _, _ => False

theorem BusObj.Rel.set {root : Handle} {o : BusObj} {b : Bus} (h : o.Rel root b) {attr : String} (ha : attr ∉ busReserved) (v : Option Handle) :
    relE root (o.enter attr v) (.ok { b with signals := dictSet b.signals attr v }) := by
  simp only [busReserved, List.cons_append, List.nil_append, List.mem_cons, not_or] at ha
  obtain ⟨a1, a2, a3, a4, a5⟩ := ha
  have hs : o.enter attr v = .ok ⟨dictSet o.attrs attr (.handle v), dictSet o.signals attr v⟩ := by
    have hset : o.setattr attr (.handle v) = .ok { o with attrs := dictSet o.attrs attr (.handle v) } := by
      simp only [BusObj.setattr, if_neg a5]
    have h1 : BusObj.getattr { o with attrs := dictSet o.attrs attr (.handle v) } attr = .ok (.handle v) := by
      simp [BusObj.getattr, dictGet_dictSet]
    have h2 : BusObj.getattr { o with attrs := dictSet o.attrs attr (.handle v) } "_signals" = .ok .sigDict := by
      simp [BusObj.getattr, dictGet_dictSet, a2, h.inv.sig]
    unfold BusObj.enter
    rw [hset]
    show (do
        match ← BusObj.getattr { o with attrs := dictSet o.attrs attr (.handle v) } attr with
        | .handle v' =>
          match ← BusObj.getattr { o with attrs := dictSet o.attrs attr (.handle v) } "_signals" with
          | .sigDict => Except.ok ({ attrs := dictSet o.attrs attr (.handle v), signals := dictSet o.signals attr v' } : BusObj)
          | _ => .error .typeError
        | _ => .error .typeError : Except PyErr BusObj) = _
    rw [h1]
    show (do
          match ← BusObj.getattr { o with attrs := dictSet o.attrs attr (.handle v) } "_signals" with
          | .sigDict => Except.ok ({ attrs := dictSet o.attrs attr (.handle v), signals := dictSet o.signals attr v } : BusObj)
          | _ => .error .typeError : Except PyErr BusObj) = _
    rw [h2]
    rfl
  have hinv := Inv_set h.inv hs
  rw [hs]
  exact ⟨hinv.1, by simp [h.eq], by simp [dictGet_dictSet, a1, h.ent], by simp [dictGet_dictSet, a3, h.m1], by simp [dictGet_dictSet, a4, h.m2]⟩

theorem BusObj.Rel.add {root : Handle} {o : BusObj} {b : Bus} (h : o.Rel root b) (fold : String → String) (w : Design) {attr : String}
    (ha : attr ∉ busReserved) (signame : String) (idx : Option Int) (ci : Bool) :
    relE root (addSignalN fold w o attr signame idx ci) (addSignal fold (w.entity root) b attr signame idx ci) := by
  have c1 : o.callable "_add_signal" = .ok () := by unfold BusObj.callable BusObj.getattr; rw [h.m1]; decide
  have c2 : o.callable "_caseInsensGetattr" = .ok () := by unfold BusObj.callable BusObj.getattr; rw [h.m2]; decide
  have c3 : o.entity = .ok root := by unfold BusObj.entity BusObj.getattr; rw [h.ent]; rfl
  have e1 : addSignalN fold w o attr signame idx ci =
      (o.lookup fold w root signame ci).bind fun v => (w.indexed idx v).bind fun v => o.enter attr v := by
    unfold addSignalN; rw [c1, c3]; rfl
  have e2 : addSignal fold (w.entity root) b attr signame idx ci =
      (o.lookup fold w root signame ci).bind fun v => (w.indexed idx v).bind fun v => .ok { b with signals := dictSet b.signals attr v } := by
    cases ci with
    | true =>
      have : o.lookup fold w root signame true = .ok (caseInsensGetattr fold (w.entity root) signame) := by
        unfold BusObj.lookup; rw [c2]; rfl
      rw [this]
      unfold addSignal
      cases idx with
      | none => rfl
      | some i =>
        show _ = (w.indexed (some i) (caseInsensGetattr fold (w.entity root) signame)).bind _
        generalize caseInsensGetattr fold (w.entity root) signame = x
        cases x <;> rfl
    | false =>
      unfold addSignal BusObj.lookup
      cases exactGetattr (w.entity root) signame with
      | error e => rfl
      | ok x => cases idx <;> rfl
  rw [e1, e2]
  cases o.lookup fold w root signame ci with
  | error e => exact rfl
  | ok v =>
    show relE root ((w.indexed idx v).bind _) ((w.indexed idx v).bind _)
    cases w.indexed idx v with
    | error e => exact rfl
    | ok v => exact h.set ha v

theorem relE_bind {root : Handle} {x : Except PyErr BusObj} {y : Except PyErr Bus} {f : BusObj → Except PyErr BusObj} {g : Bus → Except PyErr Bus}
    (h : relE root x y) (hf : ∀ o b, o.Rel root b → relE root (f o) (g b)) : relE root (x.bind f) (y.bind g) := by
  cases x <;> cases y <;> first | exact h | exact h.elim | exact hf _ _ h

theorem addRequiredN_rel {root : Handle} (fold : String → String) (w : Design) (name : Option String) (sep : String) (idx : Option Int) (ci : Bool) :
    ∀ (l : List (String × String)) (o : BusObj) (b : Bus), o.Rel root b → (∀ p ∈ l, p.1 ∉ busReserved) →
      relE root (addRequiredN fold w name sep idx ci l o) (addRequired fold (w.entity root) name sep idx ci l b)
  | [], o, b, h, _ => h
  | (attr, sig) :: r, o, b, h, hl => by
    simp only [addRequiredN, addRequired]
    exact relE_bind (h.add fold w (hl _ (List.mem_cons_self ..)) _ _ _)
      (fun o b h => addRequiredN_rel fold w name sep idx ci r o b h (fun p hp => hl p (List.mem_cons_of_mem _ hp)))

theorem addOptionalN_rel {root : Handle} (fold : String → String) (w : Design) (name : Option String) (sep : String) (idx : Option Int) (ci : Bool) :
    ∀ (l : List (String × String)) (o : BusObj) (b : Bus), o.Rel root b → (∀ p ∈ l, p.1 ∉ busReserved) →
      relE root (addOptionalN fold w root name sep idx ci l o) (addOptional fold (w.entity root) name sep idx ci l b)
  | [], o, b, h, _ => h
  | (attr, sig) :: r, o, b, h, hl => by
    have c2 : o.callable "_caseInsensGetattr" = .ok () := by unfold BusObj.callable BusObj.getattr; rw [h.m2]; decide
    have c3 : o.entity = .ok root := by unfold BusObj.entity BusObj.getattr; rw [h.ent]; rfl
    have e1 : addOptionalN fold w root name sep idx ci ((attr, sig) :: r) o =
        (if (caseInsensGetattr fold (w.entity root) (fullName name sep sig)).isSome then
          addSignalN fold w o attr (fullName name sep sig) idx ci else .ok o).bind (addOptionalN fold w root name sep idx ci r) := by
      rw [addOptionalN, c2, c3]; rfl
    have e2 : addOptional fold (w.entity root) name sep idx ci ((attr, sig) :: r) b =
        (if (caseInsensGetattr fold (w.entity root) (fullName name sep sig)).isSome then
          addSignal fold (w.entity root) b attr (fullName name sep sig) idx ci else .ok b).bind (addOptional fold (w.entity root) name sep idx ci r) := by
      rw [addOptional]; split <;> rfl
    rw [e1, e2]
    refine relE_bind ?_ (fun o b h => addOptionalN_rel fold w name sep idx ci r o b h (fun p hp => hl p (List.mem_cons_of_mem _ hp)))
    split
    · exact h.add fold w (hl _ (List.mem_cons_self ..)) _ _ _
    · exact h

theorem busInit_rel (fold : String → String) (w : Design) (root : Handle) (name : Option String) (signals optional : SigSpec) (sep : String)
    (ci : Bool) (idx : Option Int)
    (hr : ∀ p ∈ buildSigAttrDict signals, p.1 ∉ busReserved) (ho : ∀ p ∈ buildSigAttrDict optional, p.1 ∉ busReserved) :
    relE root (BusObj.init fold w root name signals optional sep ci idx) (Bus.init fold (w.entity root) name signals optional sep ci idx) := by
  simp only [BusObj.init, Bus.init]
  exact relE_bind (addRequiredN_rel fold w name sep idx ci _ _ _ ⟨busInit_inv, rfl, rfl, rfl, rfl⟩ hr)
    (fun o b h => addOptionalN_rel fold w name sep idx ci _ o b h ho)

/-! ### Names of signals -/

theorem addRequired_keys (fold : String → String) (e : Entity) (name : Option String) (sep : String) (idx : Option Int) (ci : Bool) :
    ∀ (l : List (String × String)) (b b' : Bus), addRequired fold e name sep idx ci l b = .ok b' →
      ∀ k ∈ b'.signals.map Prod.fst, k ∈ b.signals.map Prod.fst ∨ ∃ sig, (k, sig) ∈ l
  | [], b, b', h, k, hk => by cases h; exact Or.inl hk
  | (a, s) :: r, b, b', h, k, hk => by
    rw [addRequired_cons] at h
    split at h
    · rcases addRequired_keys fold e name sep idx ci r _ b' h k hk with hk | ⟨sig, hk⟩
      · rcases (mem_keys_dictSet _ _ _ _).1 hk with rfl | hk
        · exact Or.inr ⟨s, List.mem_cons_self ..⟩
        · exact Or.inl hk
      · exact Or.inr ⟨sig, List.mem_cons_of_mem _ hk⟩
    · cases h

theorem busInit_names {fold : String → String} {e : Entity} {name : Option String} {signals optional : SigSpec} {sep : String} {ci : Bool}
    {idx : Option Int} {b : Bus} (h : Bus.init fold e name signals optional sep ci idx = .ok b) {k : String} (hk : k ∈ b.signals.map Prod.fst) :
    ∃ sig, (k, sig) ∈ buildSigAttrDict signals ∨ (k, sig) ∈ buildSigAttrDict optional := by
  simp only [Bus.init] at h
  obtain ⟨b1, h1, h2⟩ := Except.bind_ok_inv h
  rw [addOptional_eq] at h2
  rcases addRequired_keys _ _ _ _ _ _ _ _ _ h2 k hk with hk | ⟨sig, hk⟩
  · rcases addRequired_keys _ _ _ _ _ _ _ _ _ h1 k hk with hk | ⟨sig, hk⟩
    · cases hk
    · exact ⟨sig, Or.inl hk⟩
  · exact ⟨sig, Or.inr (List.mem_filter.1 hk).1⟩

end CocotbBus
