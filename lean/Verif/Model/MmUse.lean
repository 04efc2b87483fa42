import Verif.Model.AvalonMM
import Verif.Model.AvalonMemory

/-!
# An Avalon-MM master in use

A test calls `read` and `write` of one `AvalonMaster` (drivers/avalon.py:93-197) one after the other, letting any number of clock
edges pass in between.
-/

namespace CocotbBus
open Coro

/-- One step of such a test. -/
inductive MmOp where
  | write (address value : Nat)     -- `await master.write(address, value)`
  | read (address : Nat)            -- `await master.read(address)`, with sync=True (the default)
  | pause (edges : Nat)
  deriving DecidableEq, Repr

/-- One step: what `read` returned (drivers/avalon.py:93-197). -/
def mmStep (c : MmCfg) : MmOp → M MmIn MmOut (Option LogicArray)
  | .write a v => do
    mmWrite c a v
    pure none
  | .read a => do
    let d ← mmRead c a true
    pure (some d)
  | .pause n => do
    edges n
    pure none

/-- The values read so far, and the state of the test: it may be in the middle of a step (drivers/avalon.py:93-197). -/
def mmUse (c : MmCfg) : List MmOp → Sim MmIn MmOut → List LogicArray × Res MmIn MmOut Unit
  | [], s => ([], [], .ok () s)
  | op :: ops, s =>
    match mmStep c op s with
    | (t, .ok d s') =>
      let r := mmUse c ops s'
      (d.toList ++ r.1, t ++ r.2.1, r.2.2)
    | (t, .err e s') => ([], t, .err e s')
    | (t, .blocked s') => ([], t, .blocked s')

end CocotbBus
