import Verif.Model.Base

/-!
# `src/cocotb_bus/bus.py`

Simplifications: an entity is the ordered list of its members `(name, handle)` as enumerated by `dir`
(Python attributes of the handle object and sub-handles alike); case folding is an arbitrary function
`fold`; indexing a handle (`handle[array_idx]`) is an arbitrary partial function.
Assigning `handle.value` always succeeds (value conversion is cocotb's).
-/

namespace CocotbBus

/-- A simulator handle, identified by a number. -/
abbrev Handle := Nat

/-- The *signals* argument: list or dict (bus.py:48-53). -/
inductive SigSpec where
  | list (names : List String)
  | dict (pairs : List (String × String))
  deriving DecidableEq, Repr

/-- Python dict assignment on an insertion-ordered association list. -/
def dictSet {α β : Type} [DecidableEq α] (d : List (α × β)) (k : α) (v : β) : List (α × β) :=
  match d with
  | [] => [(k, v)]
  | (k', v') :: r => if k' = k then (k', v) :: r else (k', v') :: dictSet r k v

/-- Python dict lookup. -/
def dictGet {α β : Type} [DecidableEq α] (d : List (α × β)) (k : α) : Option β :=
  match d with
  | [] => none
  | (k', v') :: r => if k' = k then some v' else dictGet r k

/-- `_build_sig_attr_dict` (bus.py:12-16): pairs (attribute name, signal name). -/
def buildSigAttrDict : SigSpec → List (String × String)
  | .dict d => d
  | .list l => l.foldl (fun d s => dictSet d s s) []

/-- The simulator entity: members in `dir()` order, and indexing of handles. -/
structure Entity where
  members : List (String × Handle)
  index : Handle → Int → Except PyErr Handle

/-- A `Bus` object: `_signals` (attribute name to handle; `none` is Python's `None`). The instance
attributes set by `setattr` (bus.py:102) are the same mapping. -/
structure Bus where
  signals : List (String × Option Handle)
  deriving DecidableEq, Repr

/-- `_caseInsensGetattr` (bus.py:88-92). -/
def caseInsensGetattr (fold : String → String) (e : Entity) (attr : String) : Option Handle :=
  match e.members.find? (fun m => fold m.1 == fold attr) with
  | some m => some m.2
  | none => none

/-- `getattr(self._entity, signame)` (bus.py:99). -/
def exactGetattr (e : Entity) (attr : String) : Except PyErr Handle :=
  match e.members.find? (fun m => m.1 == attr) with
  | some m => .ok m.2
  | none => .error .attributeError

/-- `_add_signal` (bus.py:94-103). -/
def addSignal (fold : String → String) (e : Entity) (b : Bus) (attrName signame : String)
    (arrayIdx : Option Int) (caseInsensitive : Bool) : Except PyErr Bus := do
  let handle ←
    if caseInsensitive then .ok (caseInsensGetattr fold e signame)
    else (exactGetattr e signame).map some
  let handle ←
    match arrayIdx with
    | none => .ok handle
    | some i =>
      match handle with
      | none => .error .typeError        -- 'NoneType' object is not subscriptable
      | some h => (e.index h i).map some
  .ok { b with signals := dictSet b.signals attrName handle }

/-- `signame` of bus.py:66-69 and 75-78; `if name:` is false for `None` and `""`. -/
def fullName (name : Option String) (sep sig : String) : String :=
  match name with
  | some n => if n = "" then sig else n ++ sep ++ sig
  | none => sig

/-- First loop of `Bus.__init__` (bus.py:65-71). -/
def addRequired (fold : String → String) (e : Entity) (name : Option String) (sep : String)
    (arrayIdx : Option Int) (ci : Bool) : List (String × String) → Bus → Except PyErr Bus
  | [], b => .ok b
  | (attr, sig) :: r, b => do
    let b ← addSignal fold e b attr (fullName name sep sig) arrayIdx ci
    addRequired fold e name sep arrayIdx ci r b

/-- Second loop of `Bus.__init__` (bus.py:73-86). -/
def addOptional (fold : String → String) (e : Entity) (name : Option String) (sep : String)
    (arrayIdx : Option Int) (ci : Bool) : List (String × String) → Bus → Except PyErr Bus
  | [], b => .ok b
  | (attr, sig) :: r, b => do
    let b ←
      if (caseInsensGetattr fold e (fullName name sep sig)).isSome then
        addSignal fold e b attr (fullName name sep sig) arrayIdx ci
      else .ok b
    addOptional fold e name sep arrayIdx ci r b

/-- `Bus.__init__` (bus.py:32-86). -/
def Bus.init (fold : String → String) (e : Entity) (name : Option String) (signals optional : SigSpec)
    (sep : String := "_") (caseInsensitive : Bool := true) (arrayIdx : Option Int := none) :
    Except PyErr Bus := do
  let b ← addRequired fold e name sep arrayIdx caseInsensitive (buildSigAttrDict signals) ⟨[]⟩
  addOptional fold e name sep arrayIdx caseInsensitive (buildSigAttrDict optional) b

section Access
variable {V : Type}

/-- Current signal values. -/
abbrev Store (V : Type) := Handle → V

/-- Assignment `hdl.value = v`. -/
def Store.set (s : Store V) (h : Handle) (v : V) : Store V := fun h' => if h' = h then v else s h'

/-- `Bus.drive` (bus.py:105-131) on an object given by its attribute lookup
(`obj a = none` iff `not hasattr(obj, a)`). Returns the new signal values and the exception, if any.
Driving through a `None` handle raises AttributeError. -/
def drive (strict : Bool) (obj : String → Option V) :
    List (String × Option Handle) → Store V → Store V × Option PyErr
  | [], st => (st, none)
  | (attr, hdl) :: r, st =>
    match obj attr with
    | none => if strict then (st, some .attributeError) else drive strict obj r st
    | some v =>
      match hdl with
      | none => (st, some .attributeError)
      | some h => drive strict obj r (st.set h v)

/-- `Bus.drive` as a method. -/
def Bus.drive (b : Bus) (obj : String → Option V) (st : Store V) (strict : Bool := false) :
    Store V × Option PyErr :=
  CocotbBus.drive strict obj b.signals st

/-- `_capture` of bus.py:157-159: the dict contents. -/
def captureList : List (String × Option Handle) → Store V → Except PyErr (List (String × V))
  | [], _ => .ok []
  | (_, none) :: _, _ => .error .attributeError
  | (attr, some h) :: r, st => do
    let c ← captureList r st
    .ok ((attr, st h) :: c)

/-- `Bus.capture` (bus.py:133-161). -/
def Bus.capture (b : Bus) (st : Store V) : Except PyErr (List (String × V)) :=
  captureList b.signals st

/-- Attributes every `_Capture` instance already has as a `dict` subclass (so `__getattr__`
is not consulted). -/
def dictAttrs : List String :=
  ["clear", "copy", "fromkeys", "get", "items", "keys", "pop", "popitem", "setdefault", "update", "values",
   "__class__", "__class_getitem__", "__contains__", "__delattr__", "__delitem__", "__dict__", "__dir__",
   "__doc__", "__eq__", "__format__", "__ge__", "__getattr__", "__getattribute__", "__getitem__", "__getstate__",
   "__gt__", "__hash__", "__init__", "__init_subclass__", "__ior__", "__iter__", "__le__", "__len__", "__lt__",
   "__module__", "__ne__", "__new__", "__or__", "__reduce__", "__reduce_ex__", "__repr__", "__reversed__", "__ror__",
   "__setattr__", "__setitem__", "__sizeof__", "__str__", "__subclasshook__", "__weakref__"]

/-- Result of evaluating `capture.name`. -/
inductive AttrResult (V : Type) where
  | value (v : V)
  | dictMember              -- a bound method or other `dict` attribute
  | error (e : PyErr)
  deriving DecidableEq, Repr

/-- Attribute access on a capture (bus.py:144-149): normal lookup first, `__getattr__` only if that
fails. -/
def captureGetattr (c : List (String × V)) (name : String) : AttrResult V :=
  if name ∈ dictAttrs then .dictMember
  else match dictGet c name with
    | some v => .value v
    | none => .error .runtimeError

/-- `capture.name = value` (bus.py:151-152). -/
def captureSetattr (c : List (String × V)) (_name : String) (_v : V) : List (String × V) × Option PyErr :=
  (c, some .runtimeError)

/-- `del capture.name` (bus.py:154-155). -/
def captureDelattr (c : List (String × V)) (_name : String) : List (String × V) × Option PyErr :=
  (c, some .runtimeError)

/-- An attribute of the object passed to `sample`: an ordinary value, or an object with
`set_binstr`. -/
inductive ObjAttr (V : Type) where
  | plain (v : V)
  | binstr (v : V)
  deriving DecidableEq, Repr

/-- The value held by an attribute. -/
def ObjAttr.val : ObjAttr V → V
  | .plain v => v
  | .binstr v => v

/-- `Bus.sample` (bus.py:163-195); `hasGetBinstr` says whether signal values have `get_binstr`
(cocotb 1.x) or not (2.x). -/
def sample (hasGetBinstr strict : Bool) (st : Store V) :
    List (String × Option Handle) → (String → Option (ObjAttr V)) → (String → Option (ObjAttr V)) × Option PyErr
  | [], obj => (obj, none)
  | (attr, hdl) :: r, obj =>
    match obj attr with
    | none => if strict then (obj, some .attributeError) else sample hasGetBinstr strict st r obj
    | some old =>
      match hdl with
      | none => (obj, some .attributeError)
      | some h =>
        let new : ObjAttr V :=
          match old with
          | .binstr _ => if hasGetBinstr then .binstr (st h) else .plain (st h)
          | .plain _ => .plain (st h)
        sample hasGetBinstr strict st r (fun a => if a = attr then some new else obj a)

/-- `Bus.sample` as a method. -/
def Bus.sample (b : Bus) (hasGetBinstr : Bool) (st : Store V) (obj : String → Option (ObjAttr V))
    (strict : Bool := false) : (String → Option (ObjAttr V)) × Option PyErr :=
  CocotbBus.sample hasGetBinstr strict st b.signals obj

end Access

end CocotbBus
