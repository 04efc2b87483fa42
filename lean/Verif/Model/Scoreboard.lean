import Verif.Model.Monitor
import Verif.Model.Bus

/-!
# `src/cocotb_bus/scoreboard.py`

Transactions are an arbitrary type with Python's `==`, `type` and `str` given as functions
(`!=` is the negation of `==`). Expected-output lists are heap objects (references are numbers), as the
scoreboard and the user share them. Callable expected outputs are pure functions. Logging,
`hexdump` and `hexdiff` are dropped (assumed not to raise).
-/

namespace CocotbBus

/-- Python operations on transactions. -/
structure TxnOps (T : Type) where
  eq : T → T → Bool
  ty : T → Nat
  str : T → String

/-- `expected_output`: a list object or a function. -/
inductive Expected (T : Type) where
  | list (ref : Nat)
  | fn (f : T → T)

/-- `Scoreboard` object (scoreboard.py:39-46) and the heap of expected lists. -/
structure SB (T : Type) where
  errors : Nat
  imm : Bool
  heap : Nat → List T
  expected : List (Nat × Expected T)        -- dict: monitor id to expected output

/-- Python list assignment in the heap. -/
def SB.setList {T : Type} (sb : SB T) (ref : Nat) (l : List T) : SB T :=
  { sb with heap := fun r => if r = ref then l else sb.heap r }

/-- The facts about a monitor object that matter: is it a `Monitor`, and what is `monitor.name`
(`none`: the attribute does not exist). -/
structure MonInfo where
  isMonitor : Bool
  name : Option (Option String)
  deriving DecidableEq, Repr

/-- `compare_fn` argument of `add_interface`. -/
inductive CompareFn (T : Type) where
  | none
  | callable (c : Callback T (SB T))
  | notCallable

/-- Record an error and raise if `fail_immediately` (scoreboard.py:107-114, 122-152, 236-240). -/
def SB.fail {T : Type} (sb : SB T) (msg : String) : SB T × Option PyErr :=
  ({ sb with errors := sb.errors + 1 }, if sb.imm then some (.assertion msg) else none)

/-- `Scoreboard.compare` (scoreboard.py:86-160). -/
def SB.compare {T : Type} (ops : TxnOps T) (sb : SB T) (got exp : T) (strictType : Bool) : SB T × Option PyErr :=
  if strictType && ops.ty got != ops.ty exp then
    sb.fail "Received transaction of wrong type. "
  else
    let same := if strictType then ops.eq got exp else ops.str got == ops.str exp
    if !same then sb.fail "Received transaction differed from expected transaction"
    else (sb, none)

/-- The search loop of scoreboard.py:229-233: index of the first of the first
`min (reorder_depth+1) len` elements equal to the transaction, else 0. -/
def reorderIndex {T : Type} (ops : TxnOps T) (depth : Int) (exp : List T) (t : T) : Nat :=
  let n := (min (depth + 1) exp.length).toNat
  match (exp.take n).findIdx? (fun e => ops.eq e t) with
  | some i => i
  | none => 0

/-- `check_received_transaction` (scoreboard.py:214-243). -/
def checkReceived {T : Type} (ops : TxnOps T) (info : MonInfo) (exp : Expected T) (depth : Int) (strictType : Bool) :
    Callback T (SB T) := fun t sb =>
  match info.name with
  | none => (sb, some .attributeError)                 -- monitor.name (line 218)
  | some _ =>
    match exp with
    | .fn f => sb.compare ops t (f t) strictType
    | .list ref =>
      let l := sb.heap ref
      if l.length ≠ 0 then
        let i := reorderIndex ops depth l t
        match l[i]? with
        | some e => (sb.setList ref (l.eraseIdx i)).compare ops t e strictType
        | none => (sb, some .indexError)               -- unreachable: i < length
      else sb.fail "Received a transaction but wasn't expecting anything"

/-- Scoreboard and monitors together. -/
structure World (T : Type) where
  sb : SB T
  mons : Nat → Monitor T (SB T)

/-- Update one monitor. -/
def World.setMon {T : Type} (w : World T) (mid : Nat) (m : Monitor T (SB T)) : World T :=
  { w with mons := fun i => if i = mid then m else w.mons i }

/-- `Scoreboard.add_interface` (scoreboard.py:162-245). -/
def World.addInterface {T : Type} (ops : TxnOps T) (w : World T) (mid : Nat) (info : MonInfo) (exp : Expected T)
    (compareFn : CompareFn T := .none) (depth : Int := 0) (strictType : Bool := true) : World T × Option PyErr :=
  let w := { w with sb := { w.sb with expected := dictSet w.sb.expected mid exp } }
  if !info.isMonitor then (w, some .typeError)
  else match compareFn with
    | .callable c => (w.setMon mid ((w.mons mid).addCallback c), none)
    | .notCallable => (w, some .typeError)
    | .none => (w.setMon mid ((w.mons mid).addCallback (checkReceived ops info exp depth strictType)), none)

/-- A monitor delivers a transaction: `Monitor._recv` (monitors/__init__.py:132-154). -/
def World.receive {T : Type} (w : World T) (mid : Nat) (t : T) : World T × Option PyErr :=
  match (w.mons mid).recv t w.sb with
  | (m, sb, e) => ({ w with sb := sb }.setMon mid m, e)

/-- A sequence of transactions delivered by one monitor. The coroutine stops at the first exception;
the number of transactions delivered before it is returned with it. -/
def World.receiveAll {T : Type} (w : World T) (mid : Nat) : List T → Nat → World T × Option (Nat × PyErr)
  | [], _ => (w, none)
  | t :: r, n =>
    match w.receive mid t with
    | (w, none) => w.receiveAll mid r (n + 1)
    | (w, some e) => (w, some (n, e))

/-- First loop of `Scoreboard.result` (scoreboard.py:56-81): is output still expected somewhere? -/
def SB.pending {T : Type} (sb : SB T) : Bool :=
  sb.expected.any (fun p => match p.2 with
    | .fn _ => false
    | .list ref => (sb.heap ref).length != 0)

/-- `Scoreboard.result` (scoreboard.py:48-84). -/
def SB.result {T : Type} (sb : SB T) : Except PyErr Unit :=
  if sb.pending then .error (.assertion "Not all expected output was received")
  else if sb.errors ≠ 0 then .error (.assertion "Errors were recorded during the test")
  else .ok ()

/-- A new scoreboard and monitors without callbacks; the expected lists exist. -/
def World.new {T : Type} (imm : Bool) (heap : Nat → List T) : World T :=
  ⟨⟨0, imm, heap, []⟩, fun _ => {}⟩

end CocotbBus
