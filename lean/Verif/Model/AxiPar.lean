import Verif.Model.AxiUse

/-!
# An AXI4 master used by two tasks

One task calls `write`, another one `read` of the same `AXI4Master` or `AXI4LiteMaster` (drivers/amba.py:316-684). The calls of one
kind exclude each other by locks (drivers/amba.py:143-147), but reads and writes do not: the write address, write data and read
address channels have locks and signals of their own.
-/

namespace CocotbBus
open Coro

/-- What the two tasks got, how far they came, and the common records of all signals. -/
structure AxTasks where
  writes : List (Except PyErr (List LogicArray))
  writeEnd : End AxIn AxAll Unit
  reads : List (Except PyErr (List LogicArray))
  readEnd : End AxIn AxAll Unit
  trace : List (AxAll × AxIn)

/-- Two tasks started together (drivers/amba.py:143-147, 316-684). A task that has ended leaves its signals as they are. Simplification:
the first one makes no reads and the second one no writes, so that no lock is ever found taken. -/
def axPar (c : AxCfg) (wops rops : List AxOp) (s : Sim AxIn AxAll) : AxTasks :=
  let w := axUse c wops s
  let r := axUse c rops s
  { writes := w.1, writeEnd := w.2.2, reads := r.1, readEnd := r.2.2
    trace := joinTrace (w.2.1.map (fun q => (q.1.1, q.2))) w.2.2.sim.out.1 (r.2.1.map (fun q => (q.1.2, q.2))) r.2.2.sim.out.2 }

end CocotbBus
