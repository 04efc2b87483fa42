import Verif.Model.AvalonPkts

/-!
# A driver in use: what a test (or the driver's send queue) does with it over time

`Driver._send_thread` (drivers/__init__.py:193-209) and `await driver.send(...)` from user code both call
`_driver_send` for one transaction at a time, at moments given by the rest of the test. Here these moments are
arbitrary: before every send there may be any number of clock edges and time steps.
-/

namespace CocotbBus
open Coro

/-- One step of such a use. -/
inductive Act (α : Type) where
  | send (x : α)                                 -- `_driver_send(x, ...)`
  | pause (edges : Nat)                          -- clock edges at which the driver is not used
  | step                                         -- the next action is later in the same cycle
  | gen (g : Option (List (Nat × Nat)))          -- `set_valid_generator` (drivers/__init__.py:356-359)
  deriving Repr

/-- A use of a `ValidatedBusDriver`, given its `_driver_send` (drivers/__init__.py:161-184, 196-209). -/
def session {I O α : Type} (send : α → Valids → M I O Valids) : List (Act α) → Valids → M I O Valids
  | [], v => pure v
  | .send x :: r, v => do
    let v ← send x v
    session send r v
  | .pause n :: r, v => do
    edges n
    session send r v
  | .step :: r, v => do
    nextStep
    session send r v
  | .gen g :: r, _ => session send r (setValidGenerator g)

/-- What `AvalonST.__init__` drives (drivers/avalon.py:529-534). -/
def stConstruct (cfg : StCfg) : M StIn StOut Unit :=
  write (fun _ => { valid := .zero, data := List.replicate cfg.width .x })

/-- A driver is constructed and used. -/
def stTest (cfg : StCfg) (acts : List (Act (AvVal × Bool))) : M StIn StOut Valids := do
  stConstruct cfg
  session (fun x v => stSend cfg x.1 x.2 v) acts (setValidGenerator none)

/-- What `AvalonSTPkts.__init__` drives (drivers/avalon.py:629-664). -/
def pkConstruct (c : PkCfg) : M PkIn PkOut Unit := write (pkCleanup c)

/-- A packet driver is constructed and used. -/
def pkTest (c : PkCfg) (acts : List (Act PkItem)) : M PkIn PkOut Valids := do
  pkConstruct c
  session (fun p v => pkSend c p.pkt p.sync p.channel v) acts (setValidGenerator none)

/-- A packet driver is constructed and used, also with packets given word by word (drivers/avalon.py:831-861). -/
def pkAnyTest (c : PkCfg) (acts : List (Act (PkArg × Bool × Option Int))) : M PkIn PkOut Valids := do
  pkConstruct c
  session (fun p v => pkDriverSend c p.1 p.2.1 p.2.2 v) acts (setValidGenerator none)

end CocotbBus
