import Verif.Model.Bus

/-!
# `src/cocotb_bus/bus.py` with Python's attribute lookup

`Model/Bus.lean` keeps the signals of a `Bus` apart from the rest of the object. In Python they are instance attributes (bus.py:102) like
`_entity`, `_name` and `_signals` (bus.py:62-64), and an instance attribute hides a method of the same name. Here a `Bus` has an instance
dictionary, and every `self.x` of the source is a lookup.

Simplifications: as in `Model/Bus.lean`; every handle has a `_log`; a handle is neither callable nor takes items by name (both raise
`TypeError`).
-/

namespace CocotbBus

/-- Values of attributes of a `Bus`. -/
inductive BusVal where
  | handle (h : Option Handle)   -- a handle or `None`
  | text                         -- the name of the bus
  | sigDict                      -- the dictionary created in bus.py:64
  | method (name : String)
  deriving DecidableEq, Repr

/-- A `Bus` object: instance dictionary, and contents of the dictionary created in bus.py:64. -/
structure BusObj where
  attrs : List (String × BusVal)
  signals : List (String × Option Handle)
  deriving DecidableEq, Repr

/-- The methods of the class (bus.py:32, 88, 94, 105, 133, 163). -/
def busMethods : List String := ["__init__", "_caseInsensGetattr", "_add_signal", "drive", "capture", "sample"]

/-- `getattr(self, name)`: functions of a class are hidden by instance attributes. Simplification: attributes inherited from `object`
are left out. -/
def BusObj.getattr (o : BusObj) (name : String) : Except PyErr BusVal :=
  match dictGet o.attrs name with
  | some v => .ok v
  | none => if name ∈ busMethods then .ok (.method name) else .error .attributeError

/-- Attributes that Python does not let one set to such a value. -/
def unsettable : List String := ["__class__", "__dict__", "__weakref__"]

/-- `setattr(self, name, v)`. -/
def BusObj.setattr (o : BusObj) (name : String) (v : BusVal) : Except PyErr BusObj :=
  if name ∈ unsettable then .error .typeError else .ok { o with attrs := dictSet o.attrs name v }

/-- The design: handles have members, and can be indexed. -/
structure Design where
  members : Handle → List (String × Handle)
  index : Handle → Int → Except PyErr Handle

/-- A handle as the `entity` of `Model/Bus.lean`. -/
def Design.entity (w : Design) (h : Handle) : Entity := ⟨w.members h, w.index⟩

/-- `self._entity._log` (bus.py:80, 95): the handle in `_entity`; `None` has no `_log`. -/
def BusObj.entity (o : BusObj) : Except PyErr Handle := do
  match ← o.getattr "_entity" with
  | .handle (some h) => .ok h
  | _ => .error .attributeError

/-- `self.name(...)`: what is called must be a method. -/
def BusObj.callable (o : BusObj) (name : String) : Except PyErr Unit := do
  match ← o.getattr name with
  | .method _ => .ok ()
  | _ => .error .typeError

/-- The lookup of `_add_signal` (bus.py:96-99) in the handle `e` found in `self._entity`. -/
def BusObj.lookup (fold : String → String) (w : Design) (o : BusObj) (e : Handle) (signame : String) : Bool → Except PyErr (Option Handle)
  | true => do
    o.callable "_caseInsensGetattr"
    .ok (caseInsensGetattr fold (w.entity e) signame)
  | false => (exactGetattr (w.entity e) signame).map some

/-- `handle[array_idx]` (bus.py:100-101). -/
def Design.indexed (w : Design) : Option Int → Option Handle → Except PyErr (Option Handle)
  | none, h => .ok h
  | some _, none => .error .typeError
  | some i, some h => (w.index h i).map some

/-- `setattr(self, attr_name, handle)` and `self._signals[attr_name] = getattr(self, attr_name)` (bus.py:102-103). -/
def BusObj.enter (o : BusObj) (attrName : String) (handle : Option Handle) : Except PyErr BusObj := do
  let o ← o.setattr attrName (.handle handle)
  match ← o.getattr attrName with
  | .handle v =>
    match ← o.getattr "_signals" with
    | .sigDict => .ok { o with signals := dictSet o.signals attrName v }
    | _ => .error .typeError
  | _ => .error .typeError

/-- `_add_signal` (bus.py:94-103). -/
def addSignalN (fold : String → String) (w : Design) (o : BusObj) (attrName signame : String) (arrayIdx : Option Int) (caseInsensitive : Bool) :
    Except PyErr BusObj := do
  o.callable "_add_signal"
  let e ← o.entity
  let handle ← o.lookup fold w e signame caseInsensitive
  let handle ← w.indexed arrayIdx handle
  o.enter attrName handle

/-- First loop of `Bus.__init__` (bus.py:65-71). -/
def addRequiredN (fold : String → String) (w : Design) (name : Option String) (sep : String) (arrayIdx : Option Int) (ci : Bool) :
    List (String × String) → BusObj → Except PyErr BusObj
  | [], o => .ok o
  | (attr, sig) :: r, o => do
    let o ← addSignalN fold w o attr (fullName name sep sig) arrayIdx ci
    addRequiredN fold w name sep arrayIdx ci r o

/-- Second loop of `Bus.__init__` (bus.py:73-86): the signal is looked up in the argument `entity`, not in `self._entity`. -/
def addOptionalN (fold : String → String) (w : Design) (root : Handle) (name : Option String) (sep : String) (arrayIdx : Option Int) (ci : Bool) :
    List (String × String) → BusObj → Except PyErr BusObj
  | [], o => .ok o
  | (attr, sig) :: r, o => do
    let _ ← o.entity
    o.callable "_caseInsensGetattr"
    let o ← (if (caseInsensGetattr fold (w.entity root) (fullName name sep sig)).isSome then
        addSignalN fold w o attr (fullName name sep sig) arrayIdx ci
      else .ok o : Except PyErr BusObj)
    addOptionalN fold w root name sep arrayIdx ci r o

/-- `Bus.__init__` (bus.py:32-86). -/
def BusObj.init (fold : String → String) (w : Design) (root : Handle) (name : Option String) (signals optional : SigSpec)
    (sep : String := "_") (caseInsensitive : Bool := true) (arrayIdx : Option Int := none) : Except PyErr BusObj := do
  let o : BusObj := ⟨[("_entity", .handle (some root)), ("_name", .text), ("_signals", .sigDict)], []⟩
  let o ← addRequiredN fold w name sep arrayIdx caseInsensitive (buildSigAttrDict signals) o
  addOptionalN fold w root name sep arrayIdx caseInsensitive (buildSigAttrDict optional) o

/-- `self._signals.items()` (bus.py:115, 158, 175). -/
def BusObj.items (o : BusObj) : Except PyErr (List (String × Option Handle)) := do
  match ← o.getattr "_signals" with
  | .sigDict => .ok o.signals
  | _ => .error .attributeError

section
variable {V : Type}

/-- A user's `bus.drive(obj, strict)` (bus.py:105-131). -/
def BusObj.drive (o : BusObj) (obj : String → Option V) (st : Store V) (strict : Bool := false) : Store V × Option PyErr :=
  match (do o.callable "drive"; o.items : Except PyErr _) with
  | .ok items => CocotbBus.drive strict obj items st
  | .error e => (st, some e)

/-- A user's `bus.capture()` (bus.py:133-161). -/
def BusObj.capture (o : BusObj) (st : Store V) : Except PyErr (List (String × V)) := do
  o.callable "capture"
  captureList (← o.items) st

/-- A user's `bus.sample(obj, strict)` (bus.py:163-195). -/
def BusObj.sample (o : BusObj) (hasGetBinstr : Bool) (st : Store V) (obj : String → Option (ObjAttr V)) (strict : Bool := false) :
    (String → Option (ObjAttr V)) × Option PyErr :=
  match (do o.callable "sample"; o.items : Except PyErr _) with
  | .ok items => CocotbBus.sample hasGetBinstr strict st items obj
  | .error e => (obj, some e)

end

end CocotbBus
