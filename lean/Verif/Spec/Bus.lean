import Verif.Model.Bus

/-! # Specification vocabulary for `Bus` (independent of the lookup code) -/

namespace CocotbBus.Spec

/-- "the *signals* argument asks for attribute `attr` bound to signal `sig`" -/
def Requests : SigSpec → String → String → Prop
  | .list l, attr, sig => attr = sig ∧ sig ∈ l
  | .dict d, attr, sig => (attr, sig) ∈ d

/-- A Python dict has each key once. -/
def WellFormed : SigSpec → Prop
  | .list _ => True
  | .dict d => (d.map Prod.fst).Nodup

/-- name of the net: `<bus_name><separator><signal>`, or just `<signal>` for a nameless bus -/
def netName (name : Option String) (sep sig : String) : String :=
  if name = none ∨ name = some "" then sig else name.getD "" ++ sep ++ sig

/-- `h` is the first member whose name equals `target` up to case folding -/
def IsFirstMatch (fold : String → String) (members : List (String × Handle)) (target : String)
    (h : Handle) : Prop :=
  ∃ pre n post, members = pre ++ (n, h) :: post ∧ fold n = fold target ∧
    ∀ m ∈ pre, fold m.1 ≠ fold target

/-- no member has that name up to case folding -/
def Absent (fold : String → String) (members : List (String × Handle)) (target : String) : Prop :=
  ∀ m ∈ members, fold m.1 ≠ fold target

/-- what Python's `bus.attr` evaluates to: not an attribute / `None` / a handle -/
def attrVal (b : Bus) (attr : String) : Option (Option Handle) :=
  (b.signals.find? (fun p => p.1 = attr)).map Prod.snd

/-- The bus's attribute names, in order. -/
def attributes (b : Bus) : List String := b.signals.map Prod.fst

/-- A bus whose signals are all bound to handles, under distinct attribute names (which every
constructed `Bus` satisfies unless a required signal was missing). -/
def Bound (b : Bus) : Prop :=
  (attributes b).Nodup ∧ ∀ p ∈ b.signals, p.2 ≠ none

/-- distinct attributes are bound to distinct handles -/
def DistinctHandles (b : Bus) : Prop := (b.signals.map Prod.snd).Nodup

end CocotbBus.Spec
