import Verif.Proof.BusNames
import Verif.Spec.Bus

/-!
# C75: names of signals and the operations of a `Bus`
-/

namespace CocotbBus
open Spec

/-- "the bus has a signal under this attribute name" -/
def HasSignal (o : BusObj) (attr : String) : Prop := attr ∈ o.signals.map Prod.fst

instance (o : BusObj) (attr : String) : Decidable (HasSignal o attr) := inferInstanceAs (Decidable (_ ∈ _))

/-- C75, exactly when the operations are usable: for every bus that could be constructed, whatever its signals are called, `bus.drive(...)`
does what `Bus.drive` does for the signals of the bus unless one of them is called `drive`, in which case it raises `TypeError` and drives
nothing; likewise `capture` and `sample`. -/
theorem C75_exact {V : Type} (fold : String → String) (w : Design) (root : Handle) (name : Option String) (signals optional : SigSpec)
    (sep : String) (ci : Bool) (idx : Option Int) (o : BusObj)
    (h : BusObj.init fold w root name signals optional sep ci idx = .ok o) :
    (∀ (obj : String → Option V) st strict, o.drive obj st strict =
      if HasSignal o "drive" then (st, some .typeError) else Bus.drive ⟨o.signals⟩ obj st strict) ∧
    (∀ st : Store V, o.capture st = if HasSignal o "capture" then .error .typeError else Bus.capture ⟨o.signals⟩ st) ∧
    (∀ hasGet st (obj : String → Option (ObjAttr V)) strict, o.sample hasGet st obj strict =
      if HasSignal o "sample" then (obj, some .typeError) else Bus.sample ⟨o.signals⟩ hasGet st obj strict) := by
  have hi := BusObj.init_inv h
  have hc : ∀ m ∈ ["drive", "capture", "sample"], o.callable m = if HasSignal o m then .error .typeError else .ok () := by
    intro m hm
    rw [hi.callable hm]
    simp only [HasSignal, ← dictGet_isSome]
  refine ⟨?_, ?_, ?_⟩
  · intro obj st strict
    simp only [BusObj.drive, hc "drive" (by simp), hi.items]
    by_cases h : HasSignal o "drive" <;> simp only [h, if_true, if_false] <;> rfl
  · intro st
    simp only [BusObj.capture, hc "capture" (by simp), hi.items]
    by_cases h : HasSignal o "capture" <;> simp only [h, if_true, if_false] <;> rfl
  · intro hasGet st obj strict
    simp only [BusObj.sample, hc "sample" (by simp), hi.items]
    by_cases h : HasSignal o "sample" <;> simp only [h, if_true, if_false] <;> rfl

/-- C75 for names that clash with nothing: the operations work, each signal can be read as an attribute, and the bus has the signals it would
have if names did not matter. Missing: the other names, for which it is false (`C75_violated`). -/
theorem C75_usable_partial {V : Type} (fold : String → String) (w : Design) (root : Handle) (name : Option String) (signals optional : SigSpec)
    (sep : String) (ci : Bool) (idx : Option Int)
    (hnames : ∀ attr sig, Requests signals attr sig ∨ Requests optional attr sig → attr ∉
      ["drive", "capture", "sample", "_entity", "_signals", "_add_signal", "_caseInsensGetattr", "__class__", "__dict__", "__weakref__"]) :
    (∀ e, Bus.init fold (w.entity root) name signals optional sep ci idx = .error e →
      BusObj.init fold w root name signals optional sep ci idx = .error e) ∧
    ∀ b, Bus.init fold (w.entity root) name signals optional sep ci idx = .ok b →
      ∃ o, BusObj.init fold w root name signals optional sep ci idx = .ok o ∧
        (∀ attr v, attrVal b attr = some v → o.getattr attr = .ok (.handle v)) ∧
        (∀ (obj : String → Option V) st strict, o.drive obj st strict = b.drive obj st strict) ∧
        (∀ st : Store V, o.capture st = b.capture st) ∧
        (∀ hasGet st (obj : String → Option (ObjAttr V)) strict, o.sample hasGet st obj strict = b.sample hasGet st obj strict) := by
  have hres : ∀ attr sig, (attr, sig) ∈ buildSigAttrDict signals ∨ (attr, sig) ∈ buildSigAttrDict optional → attr ∉ busReserved := by
    intro attr sig hp
    rw [mem_build, mem_build] at hp
    have := hnames attr sig hp
    simp only [List.mem_cons, List.not_mem_nil, or_false, not_or] at this
    simp [busReserved, unsettable, this]
  have hrel := busInit_rel fold w root name signals optional sep ci idx (fun p hp => hres p.1 p.2 (Or.inl hp)) (fun p hp => hres p.1 p.2 (Or.inr hp))
  constructor
  · intro e he
    rw [he] at hrel
    cases ho : BusObj.init fold w root name signals optional sep ci idx with
    | ok o => rw [ho] at hrel; exact hrel.elim
    | error e' => rw [ho] at hrel; exact congrArg _ hrel
  · intro b hb
    rw [hb] at hrel
    cases ho : BusObj.init fold w root name signals optional sep ci idx with
    | error e' => rw [ho] at hrel; exact hrel.elim
    | ok o =>
      rw [ho] at hrel
      have hrel : o.Rel root b := hrel
      have hsig : (⟨o.signals⟩ : Bus) = b := by rw [hrel.eq]
      have hno : ∀ m ∈ ["drive", "capture", "sample"], ¬ HasSignal o m := by
        intro m hm hs
        rw [HasSignal, hrel.eq] at hs
        obtain ⟨sig, hp⟩ := busInit_names hb hs
        rw [mem_build, mem_build] at hp
        have := hnames m sig hp
        simp only [List.mem_cons, List.not_mem_nil, or_false, not_or] at this hm
        rcases hm with rfl | rfl | rfl
        · exact this.1 rfl
        · exact this.2.1 rfl
        · exact this.2.2.1 rfl
      obtain ⟨h1, h2, h3⟩ := C75_exact (V := V) fold w root name signals optional sep ci idx o ho
      refine ⟨o, rfl, ?_, ?_, ?_, ?_⟩
      · intro attr v hv
        have : dictGet o.signals attr = some v := by rw [dictGet_eq_find, hrel.eq]; exact hv
        rw [BusObj.getattr, hrel.inv.bound attr v this]
      · intro obj st strict
        rw [h1, if_neg (hno _ (by simp)), hsig]
      · intro st
        rw [h2, if_neg (hno _ (by simp)), hsig]
      · intro hasGet st obj strict
        rw [h3, if_neg (hno _ (by simp)), hsig]

/-- Members of one entity, number 0: three nets of a bus `s`. -/
def namesWorld : Design where
  members := fun h => if h = 0 then [("s_data", 1), ("s_sample", 2), ("s_valid", 3), ("s__signals", 4)] else []
  index := fun _ _ => .error .indexError

/-- C75 does not hold: a bus with the signals `valid` and `sample` can be constructed and captured, but `bus.sample(obj)` raises
`TypeError`, whatever the object. -/
theorem C75_violated : ∃ o, BusObj.init id namesWorld 0 (some "s") (.list ["valid", "sample"]) (.list []) = .ok o ∧
    (∀ p ∈ o.signals, p.2 ≠ none) ∧
    (∀ st : Store Nat, o.capture st = .ok [("valid", st 3), ("sample", st 2)]) ∧
    ∀ (st : Store Nat) (obj : String → Option (ObjAttr Nat)) g strict, o.sample g st obj strict = (obj, some .typeError) := by
  refine ⟨⟨[("_entity", .handle (some 0)), ("_name", .text), ("_signals", .sigDict), ("valid", .handle (some 3)), ("sample", .handle (some 2))],
    [("valid", some 3), ("sample", some 2)]⟩, ?_, ?_, ?_, ?_⟩
  · decide +kernel
  · decide
  · intro st; rfl
  · intro st obj g strict; rfl

/-- A signal called `_signals` makes the constructor fail, although the net exists. -/
theorem C75_violated_construction : BusObj.init id namesWorld 0 (some "s") (.list ["valid", "_signals"]) (.list []) = .error .typeError := by
  decide +kernel

example : ∃ o, BusObj.init id namesWorld 0 (some "s") (.list ["valid"]) (.dict [("payload", "data"), ("x", "absent")]) = .ok o ∧
    o.signals = [("valid", some 3), ("payload", some 1)] := by
  refine ⟨⟨[("_entity", .handle (some 0)), ("_name", .text), ("_signals", .sigDict), ("valid", .handle (some 3)), ("payload", .handle (some 1))],
    [("valid", some 3), ("payload", some 1)]⟩, ?_, rfl⟩
  decide +kernel

-- the defaults: names are matched whatever their case, and attributes missing on the object are skipped
example :
    let fold : String → String := fun n => if n = "s_VALID" then "s_valid" else n
    (match BusObj.init fold namesWorld 0 (some "s") (.list ["VALID", "data"]) (.list []) with
      | .ok o =>
        let d := o.drive (fun a => if a = "data" then some 5 else none) (fun h => 10 * h)
        let r := o.sample true (fun h => 10 * h) (fun a => if a = "data" then some (.plain 5) else none)
        o.signals == [("VALID", some 3), ("data", some 1)] && d.2 == none && (List.range 5).map d.1 == [0, 5, 20, 30, 40] && r.2 == none &&
          (r.1 "data").map ObjAttr.val == some 10 && (r.1 "VALID").isNone
      | .error _ => false) = true := by decide +kernel

example : ∀ attr sig, Requests (.list ["valid"]) attr sig ∨ Requests (.dict [("payload", "data"), ("x", "absent")]) attr sig → attr ∉
    ["drive", "capture", "sample", "_entity", "_signals", "_add_signal", "_caseInsensGetattr", "__class__", "__dict__", "__weakref__"] := by
  intro attr sig h
  simp only [Requests, List.mem_cons, List.not_mem_nil, or_false, Prod.mk.injEq] at h
  rcases h with ⟨rfl, rfl⟩ | ⟨rfl, rfl⟩ | ⟨rfl, rfl⟩ <;> decide

end CocotbBus
