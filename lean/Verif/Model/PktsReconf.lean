import Verif.Model.AvalonPkts

/-!
The Avalon packet monitor whose `config` is changed while it runs (monitors/avalon.py:128-252: `self.config[...]` is read afresh at every beat;
examples/endian_swapper/tests/test_endian_swapper.py:127-147 changes `firstSymbolInHighOrderBits` of a running monitor).
-/

namespace CocotbBus

/-- `_monitor_recv` (monitors/avalon.py:140-252) on a trace in which every edge comes with the configuration the monitor finds when it handles
that edge. The signals of the bus, `report_channel` and (because `useEmpty` is computed
from it once, in the constructor) `dataBitsPerSymbol` are part of `PkCfg` too; theorems assume that these never change. -/
def pkMonitorDyn : List (PkCfg × (PkOut × PkIn)) → PkState → List PkReport × Except PyErr PkState
  | [], st => ([], .ok st)
  | (c, o, i) :: r, st =>
    match pkStep c st o i with
    | .error e => ([], .error e)
    | .ok (st, rep) =>
      let (l, e) := pkMonitorDyn r st
      (rep.toList ++ l, e)

end CocotbBus
