import Verif.Model.Driver

/-!
# Transactions are objects: `drivers/__init__.py:129, 204-210`, `monitors/__init__.py:132-154`

Python passes references. In the other models a transaction is a value; here it is an object whose contents the program may change. A monitor's
callbacks may change the transaction they are given (monitors/avalon.py:238 passes a dict) and may register further callbacks.
-/

namespace CocotbBus
variable {V : Type}

/-! ### The send queue -/

/-- A driver, the contents of the objects, what the sends of the queue took from them so far (object, and its contents then), and whether the
send in flight has done so. -/
structure ObjDrv (V : Type) where
  drv : Drv Nat
  heap : Nat → V
  shown : List (Nat × V)
  looked : Bool

/-- What can happen. `look`: the `_driver_send` in flight takes the contents of its transaction, at the beginning as `XGMII` does
(drivers/xgmii.py:162) or after some clock edges as `AvalonST` does (drivers/avalon.py:562-579). Simplification: all at once. -/
inductive ObjOp (V : Type) where
  | change (r : Nat) (v : V)   -- the program changes an object
  | look
  | other (o : DOp Nat)        -- as in `Model/Driver.lean`
  deriving DecidableEq, Repr

/-- One step; `none` if it is not possible. The coroutine may start a send in `run` and `sendDone` (drivers/__init__.py:204-210); a send is not
completed before it has looked at the transaction. -/
def ObjDrv.step (s : ObjDrv V) : ObjOp V → Option (ObjDrv V)
  | .change r v => some { s with heap := fun r' => if r' = r then v else s.heap r' }
  | .look =>
    match s.drv.thread with
    | .sending it _ => if s.looked then none else some { s with looked := true, shown := s.shown ++ [(it.txn, s.heap it.txn)] }
    | _ => none
  | .other .run => (s.drv.step .run).map (fun d => { s with drv := d, looked := false })
  | .other .sendDone => if s.looked then (s.drv.step .sendDone).map (fun d => { s with drv := d, looked := false }) else none
  | .other (.callbackRaise e) => if s.looked then (s.drv.step (.callbackRaise e)).map (fun d => { s with drv := d }) else none
  | .other o => (s.drv.step o).map (fun d => { s with drv := d })

/-- A history. -/
def ObjDrv.run (s : ObjDrv V) : List (ObjOp V) → Option (ObjDrv V)
  | [] => some s
  | o :: r =>
    match s.step o with
    | none => none
    | some s' => s'.run r

/-- A new driver (drivers/__init__.py:78-90). -/
def ObjDrv.init (heap : Nat → V) : ObjDrv V := ⟨Drv.init, heap, [], false⟩

/-! ### The callbacks of a monitor -/

/-- What a callback does with the transaction it is given and the monitor: new contents of the transaction, callbacks it registers
(`add_callback`, monitors/__init__.py:88-97), an exception it ends with. -/
structure CbDoes (V : Type) where
  changes : Option V := none
  adds : List Nat := []
  raises : Option PyErr := none
  deriving DecidableEq, Repr

/-- What callbacks do: it may depend on the calls so far (callback, contents it saw), the callback and the contents of the transaction. -/
abbrev CbBeh (V : Type) := List (Nat × V) → Nat → V → CbDoes V

/-- The loop over the callbacks (monitors/__init__.py:138-139): the position in the list, the list (which may grow meanwhile), the
contents of the transaction, the calls so far, the exception that ended the loop. -/
structure CbLoop (V : Type) where
  idx : Nat
  cbs : List Nat
  obj : V
  calls : List (Nat × V)
  exc : Option PyErr
  deriving DecidableEq, Repr

/-- One iteration; `none` when the loop is over. A Python `for` over a list takes the element at the next position as long as there is one. -/
def CbLoop.step (beh : CbBeh V) (s : CbLoop V) : Option (CbLoop V) :=
  match s.exc with
  | some _ => none
  | none =>
    match s.cbs[s.idx]? with
    | none => none
    | some k =>
      let d := beh s.calls k s.obj
      some { idx := s.idx + 1, cbs := s.cbs ++ d.adds, obj := d.changes.getD s.obj, calls := s.calls ++ [(k, s.obj)], exc := d.raises }

/-- `n` iterations; `none` if the loop is over before. -/
def CbLoop.steps (beh : CbBeh V) : Nat → CbLoop V → Option (CbLoop V)
  | 0, s => some s
  | n + 1, s =>
    match s.step beh with
    | none => none
    | some s' => s'.steps beh n

/-- A monitor (monitors/__init__.py:52-74); the contents of the transactions in the queue are those when they were queued. -/
structure SMon (V : Type) where
  received : Nat := 0
  cbs : List Nat := []
  calls : List (Nat × V) := []
  queue : List V := []
  hasEvent : Bool := false
  eventSets : List V := []
  waitData : Option V := none
  deriving DecidableEq, Repr

/-- The loop `_recv` starts (monitors/__init__.py:132-139). -/
def SMon.loop (m : SMon V) (v : V) : CbLoop V := ⟨0, m.cbs, v, m.calls, none⟩

/-- The rest of `_recv` once the loop is over (monitors/__init__.py:141-154); with an exception it is not reached. -/
def SMon.after (m : SMon V) (s : CbLoop V) : SMon V :=
  let m := { m with received := m.received + 1, cbs := s.cbs, calls := s.calls }
  match s.exc with
  | some _ => m
  | none =>
    let m := if m.cbs.isEmpty then { m with queue := m.queue ++ [s.obj] } else m
    let m := if m.hasEvent then { m with eventSets := m.eventSets ++ [s.obj] } else m
    { m with waitData := some s.obj }

/-- `_recv` of a transaction with contents `v` comes to an end, with this monitor. -/
def SMon.Recv (beh : CbBeh V) (m : SMon V) (v : V) (m' : SMon V) (exc : Option PyErr) : Prop :=
  ∃ n s, (m.loop v).steps beh n = some s ∧ s.step beh = none ∧ m' = m.after s ∧ exc = s.exc

end CocotbBus
