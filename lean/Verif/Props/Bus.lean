import Verif.Proof.Bus

/-! # Properties C01–C07: the `Bus` object -/

namespace CocotbBus
open Spec

/-! ### Example entity used for the non-vacuity checks -/

/-- Upper-cases nothing but the letters used in the examples (a concrete case folding). -/
def exFold (s : String) : String := if s = "BUS_CLK" then "bus_clk" else if s = "CLK" then "clk" else s

def exEntity : Entity where
  members := [("foo", 1), ("BUS_CLK", 2), ("bus_data", 3), ("bus_clk", 4)]
  index := fun h i => if 0 ≤ i ∧ i < 4 then .ok (10 * h + i.toNat) else .error .indexError

/-! ### C01 -/

/-- C01: in the default mode a required attribute is bound to `h` exactly when `h` is the first
member with the required net name up to case. -/
theorem C01_binding (fold : String → String) (e : Entity) (name : Option String) (signals optional : SigSpec)
    (sep : String) (b : Bus) (hs : WellFormed signals) (ho : WellFormed optional)
    (hb : Bus.init fold e name signals optional sep true none = .ok b)
    (attr sig : String) (hreq : Requests signals attr sig) (hnot : ∀ s, ¬ Requests optional attr s) (h : Handle) :
    attrVal b attr = some (some h) ↔ IsFirstMatch fold e.members (netName name sep sig) h := by
  obtain ⟨v, h1, h2⟩ := (init_attr fold e name signals optional sep none true hs ho b hb attr).1 sig hreq hnot
  rw [attrVal_eq, h2, ← caseInsens_some]
  have : caseInsensGetattr fold e (netName name sep sig) = v := Except.ok.inj h1
  rw [this]
  simp

/-- C01: when exactly one member has the name up to case, the attribute is that member. -/
theorem C01_unique_member (fold : String → String) (e : Entity) (name : Option String) (signals optional : SigSpec)
    (sep : String) (b : Bus) (hs : WellFormed signals) (ho : WellFormed optional)
    (hb : Bus.init fold e name signals optional sep true none = .ok b)
    (attr sig : String) (hreq : Requests signals attr sig) (hnot : ∀ s, ¬ Requests optional attr s)
    (n : String) (h : Handle) (hm : (n, h) ∈ e.members) (hn : fold n = fold (netName name sep sig))
    (huniq : ∀ m ∈ e.members, fold m.1 = fold (netName name sep sig) → m = (n, h)) :
    attrVal b attr = some (some h) := by
  rw [C01_binding fold e name signals optional sep b hs ho hb attr sig hreq hnot]
  obtain ⟨v, hv⟩ : ∃ v, caseInsensGetattr fold e (netName name sep sig) = some v := by
    cases hc : caseInsensGetattr fold e (netName name sep sig) with
    | some v => exact ⟨v, rfl⟩
    | none => exact absurd hn ((caseInsens_none _ _ _).1 hc _ hm)
  have hf := (caseInsens_some _ _ _ _).1 hv
  obtain ⟨pre, n', post, h1, h2, h3⟩ := hf
  have : (n', v) = (n, h) := huniq _ (by rw [h1]; simp) h2
  cases this
  exact ⟨pre, n, post, h1, h2, h3⟩

/-- C01, with `array_idx` and/or case-sensitive lookup: the attribute is the indexed first match. -/
theorem C01_binding_all_modes (fold : String → String) (e : Entity) (name : Option String)
    (signals optional : SigSpec) (sep : String) (ci : Bool) (i : Int) (b : Bus)
    (hs : WellFormed signals) (ho : WellFormed optional)
    (attr sig : String) (hreq : Requests signals attr sig) (hnot : ∀ s, ¬ Requests optional attr s) :
    (Bus.init fold e name signals optional sep ci (some i) = .ok b →
      ∃ h h', attrVal b attr = some (some h') ∧ e.index h i = .ok h' ∧
        IsFirstMatch (if ci then fold else id) e.members (netName name sep sig) h) ∧
    (Bus.init fold e name signals optional sep false none = .ok b →
      ∃ h, attrVal b attr = some (some h) ∧ IsFirstMatch id e.members (netName name sep sig) h) := by
  have hex (h : Handle) : exactGetattr e (netName name sep sig) = .ok h →
      IsFirstMatch id e.members (netName name sep sig) h := by
    intro hh
    rw [← caseInsens_some]
    unfold exactGetattr at hh
    unfold caseInsensGetattr
    simp only [id]
    split at hh
    · rename_i m hm
      cases hh; rfl
    · cases hh
  constructor
  · intro hb
    obtain ⟨v, h1, h2⟩ := (init_attr fold e name signals optional sep (some i) ci hs ho b hb attr).1 sig hreq hnot
    rw [attrVal_eq, h2]
    cases ci with
    | true =>
      cases hc : caseInsensGetattr fold e (netName name sep sig) with
      | none => simp [resolve, hc, bind, Except.bind] at h1
      | some h =>
        simp only [resolve, if_true, hc, bind, Except.bind] at h1
        cases hi : e.index h i with
        | error x => simp [hi, Except.map] at h1
        | ok h' =>
          simp [hi, Except.map] at h1
          exact ⟨h, h', by rw [h1], hi, (caseInsens_some _ _ _ _).1 hc⟩
    | false =>
      cases hc : exactGetattr e (netName name sep sig) with
      | error x => simp [resolve, hc, bind, Except.bind, Except.map] at h1
      | ok h =>
        simp only [resolve, Bool.false_eq_true, if_false, hc, bind, Except.bind, Except.map] at h1
        cases hi : e.index h i with
        | error x => simp [hi] at h1
        | ok h' =>
          simp [hi] at h1
          exact ⟨h, h', by rw [h1], hi, hex h hc⟩
  · intro hb
    obtain ⟨v, h1, h2⟩ := (init_attr fold e name signals optional sep none false hs ho b hb attr).1 sig hreq hnot
    rw [attrVal_eq, h2]
    cases hc : exactGetattr e (netName name sep sig) with
    | error x => simp [resolve, hc, bind, Except.bind, Except.map] at h1
    | ok h =>
      simp [resolve, hc, bind, Except.bind, Except.map] at h1
      exact ⟨h, by rw [h1], hex h hc⟩

/-- C01: nothing the bus was not asked for is bound. -/
theorem C01_nothing_else (fold : String → String) (e : Entity) (name : Option String) (signals optional : SigSpec)
    (sep : String) (ci : Bool) (idx : Option Int) (b : Bus) (hs : WellFormed signals) (ho : WellFormed optional)
    (hb : Bus.init fold e name signals optional sep ci idx = .ok b) (attr : String) :
    (attrVal b attr).isSome → ∃ sig, Requests signals attr sig ∨ Requests optional attr sig := by
  intro h
  apply Classical.byContradiction
  intro hn
  simp only [not_exists, not_or] at hn
  have := (init_attr fold e name signals optional sep idx ci hs ho b hb attr).2.2.2
    (fun s => (hn s).1) (fun s => (hn s).2)
  rw [attrVal_eq, this] at h
  simp at h

example : ∃ b, Bus.init exFold exEntity (some "bus") (.list ["data", "clk"]) (.dict [("e", "err")]) = .ok b ∧
    attrVal b "data" = some (some 3) ∧ attrVal b "clk" = some (some 2) ∧ attrVal b "e" = none :=
  ⟨⟨[("data", some 3), ("clk", some 2)]⟩, by decide, by decide, by decide, by decide⟩

example : Requests (.list ["data", "clk"]) "data" "data" ∧ (∀ s, ¬ Requests (.dict [("e", "err")]) "data" s) ∧
    WellFormed (.dict [("e", "err")]) := by
  refine ⟨⟨rfl, by decide⟩, ?_, by simp [WellFormed]⟩
  intro s h
  simp [Requests] at h

/-- the hypotheses of `C01_binding_all_modes` are met: indexed bus -/
example : Bus.init exFold exEntity (some "bus") (.list ["data"]) (.list []) "_" false (some 2) =
    .ok ⟨[("data", some 32)]⟩ := by decide

/-! ### C02 -/

/-- C02 is false of the code: in the default mode a missing required signal never makes the
constructor fail; the attribute is bound to `None`. -/
theorem C02_violated (fold : String → String) (e : Entity) (name : Option String) (signals optional : SigSpec)
    (sep : String) (hs : WellFormed signals) (ho : WellFormed optional)
    (attr sig : String) (hreq : Requests signals attr sig) (hnot : ∀ s, ¬ Requests optional attr s)
    (hmiss : Absent fold e.members (netName name sep sig)) :
    ∃ b, Bus.init fold e name signals optional sep true none = .ok b ∧ attrVal b attr = some none := by
  have hok : ∃ b, Bus.init fold e name signals optional sep true none = .ok b := by
    rw [init_isOk]
    exact ⟨fun k s _ => ⟨_, rfl⟩, fun k s _ => Or.inr ⟨_, rfl⟩⟩
  obtain ⟨b, hb⟩ := hok
  refine ⟨b, hb, ?_⟩
  obtain ⟨v, h1, h2⟩ := (init_attr fold e name signals optional sep none true hs ho b hb attr).1 sig hreq hnot
  rw [attrVal_eq, h2]
  rw [← caseInsens_none] at hmiss
  have : caseInsensGetattr fold e (netName name sep sig) = v := Except.ok.inj h1
  rw [← this, hmiss]

/-- C02, proved part: with case-sensitive lookup or with an array index a missing required signal
always makes the constructor fail. Missing: the default mode, where it does not (`C02_violated`). -/
theorem C02_missing_required_partial (fold : String → String) (e : Entity) (name : Option String)
    (signals optional : SigSpec) (sep : String) (attr sig : String) (hreq : Requests signals attr sig) :
    (netName name sep sig ∉ e.members.map Prod.fst → ∀ idx,
      ∃ x, Bus.init fold e name signals optional sep false idx = .error x) ∧
    (Absent fold e.members (netName name sep sig) → ∀ i,
      ∃ x, Bus.init fold e name signals optional sep true (some i) = .error x) := by
  have aux (ci : Bool) (idx : Option Int) (x : PyErr)
      (h : resolve fold e (netName name sep sig) idx ci = .error x) :
      ∃ x, Bus.init fold e name signals optional sep ci idx = .error x := by
    cases hb : Bus.init fold e name signals optional sep ci idx with
    | error x => exact ⟨x, rfl⟩
    | ok b =>
      have := ((init_isOk fold e name signals optional sep idx ci).1 ⟨b, hb⟩).1 attr sig hreq
      rw [h] at this
      obtain ⟨v, hv⟩ := this
      cases hv
  constructor
  · intro hm idx
    refine aux false idx .attributeError ?_
    rw [← exact_error] at hm
    simp [resolve, hm, bind, Except.bind, Except.map]
  · intro hm i
    refine aux true (some i) .typeError ?_
    rw [← caseInsens_none] at hm
    simp [resolve, hm, bind, Except.bind]

example : Bus.init exFold exEntity (some "bus") (.list ["data", "valid"]) (.list []) =
    .ok ⟨[("data", some 3), ("valid", none)]⟩ := by decide
example : Bus.init exFold exEntity (some "bus") (.list ["data", "valid"]) (.list []) "_" false none =
    .error .attributeError := by decide
example : Bus.init exFold exEntity (some "bus") (.list ["data", "valid"]) (.list []) "_" true (some 1) =
    .error .typeError := by decide

/-! ### C03 -/

/-- C03, proved part: in the default mode construction always succeeds, and an optional attribute
exists exactly when the entity has a matching member (and is then bound to the first one).
Missing: case-sensitive lookup, see `C03_violated` and `C03_case_sensitive_partial`. -/
theorem C03_optional_partial (fold : String → String) (e : Entity) (name : Option String) (signals optional : SigSpec)
    (sep : String) (hs : WellFormed signals) (ho : WellFormed optional) :
    ∃ b, Bus.init fold e name signals optional sep true none = .ok b ∧
      ∀ attr sig, Requests optional attr sig → (∀ s, ¬ Requests signals attr s) →
        ((attrVal b attr).isSome ↔ ¬ Absent fold e.members (netName name sep sig)) ∧
        (∀ h, attrVal b attr = some (some h) ↔ IsFirstMatch fold e.members (netName name sep sig) h) := by
  have hok : ∃ b, Bus.init fold e name signals optional sep true none = .ok b := by
    rw [init_isOk]
    exact ⟨fun k s _ => ⟨_, rfl⟩, fun k s _ => Or.inr ⟨_, rfl⟩⟩
  obtain ⟨b, hb⟩ := hok
  refine ⟨b, hb, ?_⟩
  intro attr sig hreq hnot
  obtain ⟨-, h2, h3, -⟩ := init_attr fold e name signals optional sep none true hs ho b hb attr
  by_cases ha : Absent fold e.members (netName name sep sig)
  · have := h3 sig hreq hnot ha
    rw [attrVal_eq, this]
    refine ⟨by simp [ha], ?_⟩
    intro h
    rw [← caseInsens_some, (caseInsens_none _ _ _).2 ha]
    simp
  · obtain ⟨v, h4, h5⟩ := h2 sig hreq ha
    have : caseInsensGetattr fold e (netName name sep sig) = v := Except.ok.inj h4
    rw [attrVal_eq, h5]
    refine ⟨by simp [ha], ?_⟩
    intro h
    rw [← caseInsens_some, this]
    simp

/-- C03, proved part for case-sensitive lookup:
construction succeeds when every required signal is present and every optional signal is either
present under exactly the requested name or absent under every capitalisation; then an optional
attribute exists exactly when the entity has the member. -/
theorem C03_case_sensitive_partial (fold : String → String) (e : Entity) (name : Option String)
    (signals optional : SigSpec) (sep : String) (hs : WellFormed signals) (ho : WellFormed optional)
    (hreq : ∀ attr sig, Requests signals attr sig → netName name sep sig ∈ e.members.map Prod.fst)
    (hopt : ∀ attr sig, Requests optional attr sig → netName name sep sig ∈ e.members.map Prod.fst ∨
      Absent fold e.members (netName name sep sig)) :
    ∃ b, Bus.init fold e name signals optional sep false none = .ok b ∧
      ∀ attr sig, Requests optional attr sig → (∀ s, ¬ Requests signals attr s) →
        ((attrVal b attr).isSome ↔ netName name sep sig ∈ e.members.map Prod.fst) := by
  have hex (t : String) (h : t ∈ e.members.map Prod.fst) : ∃ v, resolve fold e t none false = .ok v := by
    cases hc : exactGetattr e t with
    | ok v => exact ⟨some v, by simp [resolve, hc, bind, Except.bind, Except.map]⟩
    | error x =>
      have : x = .attributeError := by
        unfold exactGetattr at hc
        split at hc <;> cases hc
        rfl
      subst this
      exact absurd h ((exact_error e t).1 hc)
  have hok : ∃ b, Bus.init fold e name signals optional sep false none = .ok b := by
    rw [init_isOk]
    refine ⟨fun k s h => hex _ (hreq k s h), fun k s h => ?_⟩
    rcases hopt k s h with h' | h'
    · exact Or.inr (hex _ h')
    · exact Or.inl h'
  obtain ⟨b, hb⟩ := hok
  refine ⟨b, hb, ?_⟩
  intro attr sig hr hnot
  obtain ⟨-, h2, h3, -⟩ := init_attr fold e name signals optional sep none false hs ho b hb attr
  rcases hopt attr sig hr with h' | h'
  · have hna : ¬ Absent fold e.members (netName name sep sig) := by
      intro ha
      obtain ⟨m, h5, h6⟩ := List.mem_map.1 h'
      exact ha m h5 (by rw [h6])
    obtain ⟨v, h4, h5⟩ := h2 sig hr hna
    rw [attrVal_eq, h5]
    simpa using h'
  · rw [attrVal_eq, h3 sig hr hnot h']
    simp only [Option.isSome_none, Bool.false_eq_true, false_iff]
    intro hm
    obtain ⟨m, h5, h6⟩ := List.mem_map.1 hm
    exact h' m h5 (by rw [h6])

/-- C03, proved part for a bus that is one element of an array (`array_idx`), with either lookup: if all
required signals are present, every optional signal is present or absent under every capitalisation, and the
members found accept the index, construction succeeds; an optional attribute exists exactly when the entity
has the member, and is then the element of the first match. -/
theorem C03_array_partial (fold : String → String) (e : Entity) (name : Option String)
    (signals optional : SigSpec) (sep : String) (ci : Bool) (i : Int) (hs : WellFormed signals) (ho : WellFormed optional)
    (hreq : ∀ attr sig, Requests signals attr sig →
      ∃ h h', IsFirstMatch (if ci then fold else id) e.members (netName name sep sig) h ∧ e.index h i = .ok h')
    (hopt : ∀ attr sig, Requests optional attr sig → Absent fold e.members (netName name sep sig) ∨
      ∃ h h', IsFirstMatch (if ci then fold else id) e.members (netName name sep sig) h ∧ e.index h i = .ok h') :
    ∃ b, Bus.init fold e name signals optional sep ci (some i) = .ok b ∧
      ∀ attr sig, Requests optional attr sig → (∀ s, ¬ Requests signals attr s) →
        ((attrVal b attr).isSome ↔ ¬ Absent fold e.members (netName name sep sig)) ∧
        ∀ h h', IsFirstMatch (if ci then fold else id) e.members (netName name sep sig) h → e.index h i = .ok h' →
          attrVal b attr = some (some h') := by
  have hex (t : String) (h h' : Handle) (hf : IsFirstMatch (if ci then fold else id) e.members t h) (hi : e.index h i = .ok h') :
      resolve fold e t (some i) ci = .ok (some h') := by
    cases ci with
    | true =>
      have := (caseInsens_some _ e t h).2 hf
      simp only [if_true] at this
      simp [resolve, this, hi, bind, Except.bind, Except.map]
    | false =>
      have h1 := (caseInsens_some _ e t h).2 hf
      have h2 : exactGetattr e t = .ok h := by
        unfold caseInsensGetattr at h1
        unfold exactGetattr
        simp only [Bool.false_eq_true, if_false, id] at h1
        split at h1
        · cases h1
          rfl
        · cases h1
      simp [resolve, h2, hi, bind, Except.bind, Except.map]
  have hok : ∃ b, Bus.init fold e name signals optional sep ci (some i) = .ok b := by
    rw [init_isOk]
    refine ⟨fun k s h => ?_, fun k s h => ?_⟩
    · obtain ⟨h1, h2, h3, h4⟩ := hreq k s h
      exact ⟨_, hex _ h1 h2 h3 h4⟩
    · rcases hopt k s h with h' | ⟨h1, h2, h3, h4⟩
      · exact .inl h'
      · exact .inr ⟨_, hex _ h1 h2 h3 h4⟩
  have hpres (t : String) (h : Handle) (hf : IsFirstMatch (if ci then fold else id) e.members t h) : ¬ Absent fold e.members t := by
    obtain ⟨pre, n, post, h1, h2, -⟩ := hf
    intro ha
    refine ha (n, h) (by rw [h1]; simp) ?_
    cases ci with
    | true => exact h2
    | false =>
      have : n = t := h2
      rw [this]
  obtain ⟨b, hb⟩ := hok
  refine ⟨b, hb, ?_⟩
  intro attr sig hr hnot
  obtain ⟨-, h2, h3, -⟩ := init_attr fold e name signals optional sep (some i) ci hs ho b hb attr
  refine ⟨?_, ?_⟩
  · by_cases ha : Absent fold e.members (netName name sep sig)
    · rw [attrVal_eq, h3 sig hr hnot ha]
      simp [ha]
    · obtain ⟨v, -, h5⟩ := h2 sig hr ha
      rw [attrVal_eq, h5]
      simp [ha]
  · intro h h' hf hi
    obtain ⟨v, h4, h5⟩ := h2 sig hr (hpres _ h hf)
    rw [hex _ h h' hf hi] at h4
    cases h4
    rw [attrVal_eq, h5]

example : Bus.init exFold exEntity (some "bus") (.list ["data"]) (.list ["clk", "nope"]) "_" true (some 3) = .ok ⟨[("data", some 33), ("clk", some 23)]⟩ ∧
    IsFirstMatch exFold exEntity.members (netName (some "bus") "_" "data") 3 ∧ exEntity.index 3 3 = .ok 33 ∧
    IsFirstMatch exFold exEntity.members (netName (some "bus") "_" "clk") 2 ∧ exEntity.index 2 3 = .ok 23 ∧
    Absent exFold exEntity.members (netName (some "bus") "_" "nope") :=
  ⟨by decide, ⟨[("foo", 1), ("BUS_CLK", 2)], "bus_data", [("bus_clk", 4)], rfl, by decide, by decide⟩, by decide,
    ⟨[("foo", 1)], "BUS_CLK", [("bus_data", 3), ("bus_clk", 4)], rfl, by decide, by decide⟩, by decide, by unfold Absent; decide⟩

/-- C03 is false of the code with `case_insensitive=False`: an optional signal of which the entity
only has a differently capitalised variant makes construction fail with AttributeError. -/
theorem C03_violated (fold : String → String) (n target : String) (h : Handle) (sep : String)
    (hf : fold n = fold target) (hne : n ≠ target) (index : Handle → Int → Except PyErr Handle) :
    Bus.init fold ⟨[(n, h)], index⟩ none (.list []) (.list [target]) sep false none = .error .attributeError := by
  simp [Bus.init, buildSigAttrDict, addRequired, addOptional, addSignal, caseInsensGetattr, exactGetattr, fullName,
    dictSet, hf, hne, bind, Except.bind, Except.map]

example : exFold "CLK" = exFold "clk" ∧ "CLK" ≠ "clk" := by decide
example : Bus.init exFold exEntity (some "bus") (.list ["data"]) (.list ["clk", "nope"]) "_" false none =
    .ok ⟨[("data", some 3), ("clk", some 4)]⟩ := by decide

/-! ### C04, C05 -/

section Access
variable {V : Type}

/-- C04: `drive` does not fail, sets the signals named by `obj`'s attributes, and changes no others. -/
theorem C04_drive (b : Bus) (hb : Bound b) (hd : DistinctHandles b) (obj : String → Option V) (st : Store V) :
    (b.drive obj st).2 = none ∧
    (∀ attr h v, (attr, some h) ∈ b.signals → obj attr = some v → (b.drive obj st).1 h = v) ∧
    (∀ h, (∀ attr, (attr, some h) ∈ b.signals → obj attr = none) → (b.drive obj st).1 h = st h) := by
  have hok := drive_nonstrict_ok obj b.signals st hb.2
  refine ⟨hok, fun attr h v hm ho => drive_value _ _ _ _ hd attr h v hm ho hok, ?_⟩
  intro h hh
  apply drive_frame
  intro a v hm
  rw [hh a hm]
  exact fun e => nomatch e

/-- C04, without assuming that the attributes are bound to distinct handles: untouched signals. -/
theorem C04_drive_frame (b : Bus) (obj : String → Option V) (st : Store V) (h : Handle)
    (hh : ∀ attr, (attr, some h) ∈ b.signals → obj attr = none) : (b.drive obj st).1 h = st h := by
  apply drive_frame
  intro a v hm
  rw [hh a hm]
  exact fun e => nomatch e

/-- C05: a strict drive raises AttributeError iff some bus signal is missing on the object;
if it does not raise, all bus signals carry the object's values. -/
theorem C05_drive_strict (b : Bus) (hb : Bound b) (hd : DistinctHandles b) (obj : String → Option V) (st : Store V) :
    ((b.drive obj st true).2 = some .attributeError ↔ ∃ attr ∈ attributes b, obj attr = none) ∧
    ((b.drive obj st true).2 ≠ some .attributeError → (b.drive obj st true).2 = none ∧
      ∀ attr h, (attr, some h) ∈ b.signals → obj attr = some ((b.drive obj st true).1 h)) := by
  obtain ⟨h1, h2⟩ := drive_strict obj b.signals st hb.2
  have hiff : (b.drive obj st true).2 = none ↔ ¬ ∃ attr ∈ attributes b, obj attr = none := by
    unfold Bus.drive
    rw [h2]
    constructor
    · rintro h ⟨a, ha, hn⟩
      obtain ⟨p, hp, rfl⟩ := List.mem_map.1 ha
      exact h p hp hn
    · intro h p hp hn
      exact h ⟨p.1, List.mem_map.2 ⟨p, hp, rfl⟩, hn⟩
  constructor
  · constructor
    · intro he
      apply Classical.byContradiction
      intro hn
      rw [hiff.2 hn] at he
      cases he
    · intro he
      rcases h1 with h' | h'
      · exact absurd he (hiff.1 h')
      · exact h'
  · intro hne
    have hok : (b.drive obj st true).2 = none := by
      rcases h1 with h' | h'
      · exact h'
      · exact absurd h' hne
    refine ⟨hok, ?_⟩
    intro attr h hm
    cases ho : obj attr with
    | none =>
      exact absurd ⟨attr, List.mem_map.2 ⟨_, hm, rfl⟩, ho⟩ (hiff.1 hok)
    | some v => rw [show (b.drive obj st true).1 h = v from drive_value _ _ _ _ hd attr h v hm ho hok]

/-- C05: when a strict drive raises, exactly the signals listed before the first missing one have
been driven. -/
theorem C05_drive_strict_prefix (b : Bus) (hb : Bound b) (hd : DistinctHandles b) (obj : String → Option V)
    (st : Store V) (pre post : List (String × Option Handle)) (attr : String) (hdl : Option Handle)
    (hsplit : b.signals = pre ++ (attr, hdl) :: post) (hpre : ∀ p ∈ pre, obj p.1 ≠ none) (hmiss : obj attr = none) :
    (b.drive obj st true).2 = some .attributeError ∧
    (∀ a h v, (a, some h) ∈ pre → obj a = some v → (b.drive obj st true).1 h = v) ∧
    (∀ h, (∀ a, (a, some h) ∉ pre) → (b.drive obj st true).1 h = st h) := by
  have hbp : ∀ p ∈ pre, p.2 ≠ none := fun p hp => hb.2 p (by rw [hsplit]; simp [hp])
  have heq := drive_strict_prefix obj pre post attr hdl st hbp hpre hmiss
  have hdp : (pre.map Prod.snd).Nodup := by
    have : (b.signals.map Prod.snd).Nodup := hd
    rw [hsplit, List.map_append] at this
    exact (List.nodup_append.1 this).1
  unfold Bus.drive
  rw [hsplit, heq]
  refine ⟨rfl, ?_, ?_⟩
  · intro a h v hm ho
    exact drive_value _ _ _ _ hdp a h v hm ho (drive_nonstrict_ok _ _ _ hbp)
  · intro h hh
    exact drive_frame _ _ _ _ _ (fun a v hm => absurd hm (hh a))

/-- C05: a strict sample raises AttributeError iff some bus signal is missing on the object. -/
theorem C05_sample_strict (b : Bus) (hb : Bound b) (g : Bool) (st : Store V) (obj : String → Option (ObjAttr V)) :
    ((b.sample g st obj true).2 = some .attributeError ↔ ∃ attr ∈ attributes b, obj attr = none) ∧
    ((b.sample g st obj true).2 ≠ some .attributeError → (b.sample g st obj true).2 = none) := by
  obtain ⟨h1, h2⟩ := sample_strict g st b.signals hb.1 obj hb.2
  have hiff : (b.sample g st obj true).2 = none ↔ ¬ ∃ attr ∈ attributes b, obj attr = none := by
    unfold Bus.sample
    rw [h2]
    constructor
    · rintro h ⟨a, ha, hn⟩
      obtain ⟨p, hp, rfl⟩ := List.mem_map.1 ha
      exact h p hp hn
    · intro h p hp hn
      exact h ⟨p.1, List.mem_map.2 ⟨p, hp, rfl⟩, hn⟩
  constructor
  · constructor
    · intro he
      apply Classical.byContradiction
      intro hn
      rw [hiff.2 hn] at he
      cases he
    · intro he
      rcases h1 with h' | h'
      · exact absurd he (hiff.1 h')
      · exact h'
  · intro hne
    rcases h1 with h' | h'
    · exact h'
    · exact absurd h' hne

/-- example bus and object -/
def exBus : Bus := ⟨[("data", some 3), ("clk", some 2), ("valid", some 7)]⟩
def exObj : String → Option Nat := fun a => if a = "data" then some 42 else if a = "valid" then some 1 else none

example : Bound exBus ∧ DistinctHandles exBus := by
  refine ⟨⟨by decide, by decide⟩, by unfold DistinctHandles; decide⟩
example : (exBus.drive exObj (fun _ => 9)).1 3 = 42 ∧ (exBus.drive exObj (fun _ => 9)).1 2 = 9 := by decide
example : (exBus.drive exObj (fun _ => 9) true).2 = some .attributeError ∧
    (exBus.drive exObj (fun _ => 9) true).1 3 = 42 ∧ (exBus.drive exObj (fun _ => 9) true).1 7 = 9 := by decide

/-! ### C06 -/

/-- C06, proved part: a capture has exactly the bus's names as keys, each with the signal's value
at the time of the call; attribute reads return these values (for names that are not attributes of
Python's `dict`), reads of other names and all attribute writes and deletions raise RuntimeError and
leave the capture unchanged. That it is a snapshot is the fact that the result is a value computed
from the store at the call. Missing: names such as `keys`, see `C06_violated`. -/
theorem C06_capture_partial (b : Bus) (hb : Bound b) (st : Store V) :
    ∃ c, b.capture st = .ok c ∧
      c.map Prod.fst = attributes b ∧
      (∀ attr h, (attr, some h) ∈ b.signals → (c.find? (fun p => p.1 = attr)).map Prod.snd = some (st h)) ∧
      (∀ attr h, (attr, some h) ∈ b.signals → attr ∉ dictAttrs → captureGetattr c attr = .value (st h)) ∧
      (∀ attr, attr ∉ attributes b → attr ∉ dictAttrs → captureGetattr c attr = .error .runtimeError) ∧
      (∀ attr v, captureSetattr c attr v = (c, some .runtimeError)) ∧
      (∀ attr, captureDelattr c attr = (c, some .runtimeError)) := by
  obtain ⟨c, h1, h2, h3⟩ := captureList_ok b.signals st hb.2
  have hn : (c.map Prod.fst).Nodup := by rw [h2]; exact hb.1
  have hget (attr : String) (h : Handle) (hm : (attr, some h) ∈ b.signals) : dictGet c attr = some (st h) :=
    dictGet_of_mem c hn attr _ (h3 attr h hm)
  refine ⟨c, h1, h2, ?_, ?_, ?_, fun _ _ => rfl, fun _ => rfl⟩
  · intro attr h hm
    rw [← dictGet_eq_find]
    exact hget attr h hm
  · intro attr h hm hd
    simp [captureGetattr, hd, hget attr h hm]
  · intro attr hm hd
    have : dictGet c attr = none := by
      have := dictGet_isSome c attr
      rw [h2] at this
      cases hc : dictGet c attr with
      | none => rfl
      | some v => rw [hc] at this; exact absurd (this.1 rfl) hm
    simp [captureGetattr, hd, this]

/-- C06 is false of the code for signal names that are attributes of Python's `dict`: for such a
name `capture().<name>` is never the captured value. -/
theorem C06_violated (b : Bus) (hb : Bound b) (st : Store V) (attr : String) (h : Handle)
    (_hm : (attr, some h) ∈ b.signals) (hd : attr ∈ dictAttrs) :
    ∃ c, b.capture st = .ok c ∧ captureGetattr c attr = .dictMember := by
  obtain ⟨c, h1, -, -⟩ := captureList_ok b.signals st hb.2
  exact ⟨c, h1, by simp [captureGetattr, hd]⟩

example : exBus.capture (fun h => h * 10) = .ok [("data", 30), ("clk", 20), ("valid", 70)] := by decide
example : "data" ∉ dictAttrs ∧ "items" ∈ dictAttrs ∧ "keys" ∈ dictAttrs ∧ "pop" ∈ dictAttrs := by decide
example : Bound (⟨[("keys", some 3)]⟩ : Bus) := ⟨by decide, by decide⟩

/-- C06: a bus with a signal that was not found (see C01) cannot be captured. -/
theorem C06_unbound (b : Bus) (st : Store V) (attr : String) (h : (attr, none) ∈ b.signals) : b.capture st = .error .attributeError := by
  unfold Bus.capture
  generalize b.signals = l at *
  induction l with
  | nil => cases h
  | cons p r ih =>
    obtain ⟨a, hd⟩ := p
    cases hd with
    | none => rfl
    | some hd =>
      rcases List.mem_cons.1 h with h | h
      · cases h
      · simp only [captureList, ih h]; rfl

example : ("valid", none) ∈ (⟨[("data", some 3), ("valid", none), ("ready", some 4)]⟩ : Bus).signals := by decide

/-- C04: driving a value onto a signal that was not found raises AttributeError, strict or not. -/
theorem C04_unbound (b : Bus) (st : Store V) (obj : String → Option V) (strict : Bool) (attr : String) (h : (attr, none) ∈ b.signals)
    (ho : obj attr ≠ none) : (b.drive obj st strict).2 = some .attributeError := by
  unfold Bus.drive
  generalize b.signals = l at *
  induction l generalizing st with
  | nil => cases h
  | cons p r ih =>
    obtain ⟨a, hd⟩ := p
    simp only [CocotbBus.drive]
    cases hoa : obj a with
    | none =>
      simp only
      rcases List.mem_cons.1 h with h | h
      · cases h; exact absurd hoa ho
      · cases strict
        · exact ih st h
        · rfl
    | some v =>
      cases hd with
      | none => rfl
      | some hd =>
        simp only
        rcases List.mem_cons.1 h with h | h
        · cases h
        · exact ih _ h

/-- C07: so does sampling from it. -/
theorem C07_unbound (b : Bus) (g : Bool) (st : Store V) (obj : String → Option (ObjAttr V)) (strict : Bool) (attr : String)
    (h : (attr, none) ∈ b.signals) (ho : obj attr ≠ none) : (b.sample g st obj strict).2 = some .attributeError := by
  unfold Bus.sample
  generalize b.signals = l at *
  induction l generalizing obj with
  | nil => cases h
  | cons p r ih =>
    obtain ⟨a, hd⟩ := p
    simp only [CocotbBus.sample]
    cases hoa : obj a with
    | none =>
      simp only
      rcases List.mem_cons.1 h with h | h
      · cases h; exact absurd hoa ho
      · cases strict
        · exact ih obj ho h
        · rfl
    | some v =>
      cases hd with
      | none => rfl
      | some hd =>
        simp only
        rcases List.mem_cons.1 h with h | h
        · cases h
        · refine ih _ ?_ h
          by_cases he : attr = a
          · simp [he]
          · simp [he, ho]

/-! ### C07 -/

/-- C07: a capture after a drive shows the driven values, and the old ones elsewhere. -/
theorem C07_drive_capture (b : Bus) (hb : Bound b) (hd : DistinctHandles b) (obj : String → Option V) (st : Store V) :
    ∃ c, b.capture (b.drive obj st).1 = .ok c ∧
      ∀ attr h, (attr, some h) ∈ b.signals →
        (c.find? (fun p => p.1 = attr)).map Prod.snd = some ((obj attr).getD (st h)) := by
  obtain ⟨c, h1, -, h3, -⟩ := C06_capture_partial b hb (b.drive obj st).1
  refine ⟨c, h1, ?_⟩
  intro attr h hm
  rw [h3 attr h hm]
  obtain ⟨-, d2, d3⟩ := C04_drive b hb hd obj st
  cases ho : obj attr with
  | some v => rw [d2 attr h v hm ho]; rfl
  | none =>
    rw [d3 h]
    · rfl
    · intro a ha
      -- distinct handles: `a = attr`
      have key : ∀ (l : List (String × Option Handle)), (l.map Prod.snd).Nodup → (attr, some h) ∈ l →
          (a, some h) ∈ l → a = attr := by
        intro l
        induction l with
        | nil => intro _ h; cases h
        | cons p r ih =>
          intro hn m1 m2
          simp only [List.map_cons, List.nodup_cons] at hn
          rcases List.mem_cons.1 m1 with e1 | e1 <;> rcases List.mem_cons.1 m2 with e2 | e2
          · rw [← e1] at e2; cases e2; rfl
          · subst e1; exact absurd (List.mem_map.2 ⟨_, e2, rfl⟩) hn.1
          · subst e2; exact absurd (List.mem_map.2 ⟨_, e1, rfl⟩) hn.1
          · exact ih hn.2 e1 e2
      rw [key b.signals hd hm ha, ho]

/-- C07: `sample` copies the signal values into exactly the attributes the object has. -/
theorem C07_sample (b : Bus) (hb : Bound b) (g : Bool) (st : Store V) (obj : String → Option (ObjAttr V)) :
    (b.sample g st obj).2 = none ∧
    (∀ attr h old, (attr, some h) ∈ b.signals → obj attr = some old →
      ∃ new, (b.sample g st obj).1 attr = some new ∧ new.val = st h) ∧
    (∀ attr, obj attr = none → (b.sample g st obj).1 attr = none) ∧
    (∀ attr, attr ∉ attributes b → (b.sample g st obj).1 attr = obj attr) := by
  have hok := sample_nonstrict_ok g st b.signals obj hb.2
  refine ⟨hok, ?_, ?_, ?_⟩
  · intro attr h old hm ho
    exact sample_value g false st b.signals hb.1 obj attr h hm old ho hok
  · intro attr ha
    exact sample_none g false st b.signals obj attr ha
  · intro attr ha
    exact sample_frame g false st b.signals obj attr ha

/-- C07: drive from one object, then sample into another: common attributes agree. -/
theorem C07_drive_sample (b : Bus) (hb : Bound b) (hd : DistinctHandles b) (g : Bool) (st : Store V)
    (obj : String → Option V) (obj2 : String → Option (ObjAttr V)) (attr : String) (hm : attr ∈ attributes b)
    (v : V) (h1 : obj attr = some v) (old : ObjAttr V) (h2 : obj2 attr = some old) :
    ∃ new, (b.sample g (b.drive obj st).1 obj2).1 attr = some new ∧ new.val = v := by
  obtain ⟨⟨a, h⟩, hmem, ha⟩ := List.mem_map.1 hm
  have ha : a = attr := ha
  subst ha
  cases h with
  | none => exact absurd rfl (hb.2 _ hmem)
  | some h =>
    obtain ⟨new, n1, n2⟩ := (C07_sample b hb g (b.drive obj st).1 obj2).2.1 a h old hmem h2
    exact ⟨new, n1, by rw [n2]; exact (C04_drive b hb hd obj st).2.1 a h v hmem h1⟩

/-- Every bus built in the default mode with all required signals present is `Bound`. -/
theorem C07_reachable (fold : String → String) (e : Entity) (name : Option String) (signals optional : SigSpec)
    (sep : String) (hs : WellFormed signals) (ho : WellFormed optional) (b : Bus)
    (hb : Bus.init fold e name signals optional sep true none = .ok b)
    (hdisj : ∀ attr s s', Requests signals attr s → ¬ Requests optional attr s')
    (hreq : ∀ attr sig, Requests signals attr sig → ¬ Absent fold e.members (netName name sep sig)) : Bound b := by
  have hn := init_nodup fold e name signals optional sep none true b hb
  refine ⟨hn, ?_⟩
  intro p hp hnone
  obtain ⟨a, v⟩ := p
  have hnone : v = none := hnone
  subst hnone
  have hg := dictGet_of_mem b.signals hn a none hp
  obtain ⟨h1, h2, h3, h4⟩ := init_attr fold e name signals optional sep none true hs ho b hb a
  have hno (t : String) : resolve fold e t none true = .ok none → Absent fold e.members t := by
    intro h
    rw [← caseInsens_none]
    exact Except.ok.inj h
  obtain ⟨sig, hsig⟩ := C01_nothing_else fold e name signals optional sep true none b hs ho hb a
    (by rw [attrVal_eq, hg]; rfl)
  rcases hsig with hsig | hsig
  · obtain ⟨v, r1, r2⟩ := h1 sig hsig (fun s' => hdisj a sig s' hsig)
    rw [hg] at r2
    cases r2
    exact hreq a sig hsig (hno _ r1)
  · by_cases ha : Absent fold e.members (netName name sep sig)
    · have := h3 sig hsig (fun s' hs' => hdisj a s' sig hs' hsig) ha
      rw [hg] at this
      cases this
    · obtain ⟨v, r1, r2⟩ := h2 sig hsig ha
      rw [hg] at r2
      cases r2
      exact ha (hno _ r1)

example : (exBus.sample false (fun h => h * 10) (fun a => if a = "data" then some (.binstr 0) else none)).1 "data"
    = some (.plain 30) := by decide

end Access

end CocotbBus
