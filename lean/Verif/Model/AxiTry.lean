import Verif.Model.AxiUse

/-!
# AXI4 masters in use, all exceptions caught

As in `Model/AxiUse.lean` a test calls `read` and `write` of one master one after the other (drivers/amba.py:316-684), but it catches
whatever a call raises and goes on.
-/

namespace CocotbBus
open Coro

/-- The outcomes of the calls so far and the state of the test, which may be in the middle of a step (drivers/amba.py:316-684). The locks
are released when a call raises: they are held with `async with` (drivers/amba.py:205, 285, 381, 487, 512). -/
def axTry (c : AxCfg) : List AxOp → Sim AxIn AxAll → List (Except PyErr (List LogicArray)) × Res AxIn AxAll Unit
  | [], s => ([], [], .ok () s)
  | op :: ops, s =>
    match axStep c op s with
    | (t, .ok d s') =>
      let r := axTry c ops s'
      (.ok d :: r.1, t ++ r.2.1, r.2.2)
    | (t, .err e s') =>
      let r := axTry c ops s'
      (.error e :: r.1, t ++ r.2.1, r.2.2)
    | (t, .blocked s') => ([], t, .blocked s')

end CocotbBus
