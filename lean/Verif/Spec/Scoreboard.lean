import Verif.Model.Scoreboard

/-! # Specification vocabulary for scoreboards -/

namespace CocotbBus.Spec
variable {T : Type}

/-- the documented meaning of `strict_type`: same type and equal, or equal string representations -/
def Accepts (ops : TxnOps T) (strict : Bool) (got exp : T) : Prop :=
  if strict then ops.ty got = ops.ty exp ∧ ops.eq got exp = true else ops.str got = ops.str exp

instance (ops : TxnOps T) (strict : Bool) (got exp : T) : Decidable (Accepts ops strict got exp) := by
  unfold Accepts; infer_instance

/-- number of positions (within both lists) at which the received transaction is not acceptable -/
def mismatches (ops : TxnOps T) (strict : Bool) : List T → List T → Nat
  | r :: rs, e :: es => (if Accepts ops strict r e then 0 else 1) + mismatches ops strict rs es
  | _, _ => 0

/-- `R` is obtained from `E` by repeatedly taking one of the first `d+1` remaining elements (each
received transaction being related by `acc` to the element taken), until none remain -/
inductive Reorders (d : Nat) (acc : T → T → Prop) : List T → List T → Prop
  | nil : Reorders d acc [] []
  | take (pre post : List T) (e got : T) (R : List T) (hpre : pre.length ≤ d) (hacc : acc got e)
      (rest : Reorders d acc (pre ++ post) R) : Reorders d acc (pre ++ e :: post) (got :: R)

/-- position of the first received transaction that is unexpected or mismatches -/
def firstBad (ops : TxnOps T) (strict : Bool) : List T → List T → Option Nat
  | [], _ => none
  | _ :: _, [] => some 0
  | r :: rs, e :: es => if Accepts ops strict r e then (firstBad ops strict rs es).map (· + 1) else some 0

/-- an interface registration: monitor, its expected list, depth, strictness -/
structure Iface where
  mid : Nat
  ref : Nat
  depth : Int
  strict : Bool

/-- events after set-up: a monitor delivers a transaction, or the user extends an expected list -/
inductive SbOp (T : Type) where
  | recv (mid : Nat) (t : T)
  | extend (ref : Nat) (ts : List T)

/-- all events take effect, whatever exceptions the callbacks raise -/
def playSb : List (SbOp T) → World T → World T
  | [], w => w
  | .recv mid t :: r, w => playSb r (w.receive mid t).1
  | .extend ref ts :: r, w => playSb r { w with sb := w.sb.setList ref (w.sb.heap ref ++ ts) }

/-- register all interfaces -/
def addAll (ops : TxnOps T) (info : MonInfo) : List Iface → World T → World T
  | [], w => w
  | i :: r, w => addAll ops info r (w.addInterface ops i.mid info (.list i.ref) .none i.depth i.strict).1

/-- an interface whose expected output is a list or a function -/
structure AnyIface (T : Type) where
  mid : Nat
  exp : Expected T
  depth : Int
  strict : Bool

/-- the expected lists of such interfaces -/
def listsOf (l : List (AnyIface T)) : List Nat := l.filterMap (fun i => match i.exp with
  | .list ref => some ref
  | .fn _ => none)

/-- such interfaces are added, without `compare_fn` -/
def addAny (ops : TxnOps T) (info : MonInfo) : List (AnyIface T) → World T → World T
  | [], w => w
  | i :: r, w => addAny ops info r (w.addInterface ops i.mid info i.exp .none i.depth i.strict).1

/-- number of transactions delivered by a monitor in a history -/
def delivered (mid : Nat) : List (SbOp T) → Nat
  | [] => 0
  | .recv m _ :: r => (if m = mid then 1 else 0) + delivered mid r
  | .extend _ _ :: r => delivered mid r

/-- number of elements added to an expected list in a history -/
def added (ref : Nat) : List (SbOp T) → Nat
  | [] => 0
  | .recv _ _ :: r => added ref r
  | .extend rf ts :: r => (if rf = ref then ts.length else 0) + added ref r

/-- any `BusMonitor`: a monitor with a `name` attribute (possibly None) -/
def busMonitor (name : Option String) : MonInfo := ⟨true, some name⟩

/-- the XGMII monitor: `monitors/xgmii.py` never sets `self.name` -/
def xgmiiMonitor : MonInfo := ⟨true, none⟩

end CocotbBus.Spec
