import Verif.Model.AvalonPkts
import Verif.Model.Scoreboard

/-!
# Objects whose construction or registration fails half way

`AvalonSTPkts.__init__` of the monitor raises after `BusMonitor.__init__` has started the monitor's coroutine
(monitors/avalon.py:104-149, monitors/__init__.py:74), and `add_callback` raises for callables without `__qualname__`
(monitors/__init__.py:94-97). Simplification: the coroutine first runs after the constructor has ended, as `start_soon` schedules it.
-/

namespace CocotbBus

/-- The coroutine that `BusMonitor.__init__` has started, as it runs later: the configuration at the end of the constructor, and whether
`config["useEmpty"]` has been set by then (monitors/avalon.py:132). -/
structure PkTask where
  cfg : PkCfg
  emptyKey : Bool
  deriving DecidableEq, Repr

/-- `AvalonSTPkts.__init__` (monitors/avalon.py:93-149) for a bus with the required signals: its result and the coroutine that is running
afterwards. Line 116-117 raises before the user's options are taken (lines 119-121), lines 126-130 raise before `useEmpty` is set. -/
def pkNewMonitor (c : PkCfg) : Except PyErr Unit × PkTask :=
  (pkInit c true,
    if c.reportChannel ∧ c.channelW = none then
      ⟨{ width := c.width, hasReady := c.hasReady, emptyW := c.emptyW, channelW := c.channelW, reportChannel := c.reportChannel }, false⟩
    else if c.useEmpty ∧ c.emptyW = none then ⟨c, false⟩
    else ⟨c, true⟩)

/-- Does this iteration reach `self.config["useEmpty"]` (monitors/avalon.py:172-198)? -/
def pkAtLast (c : PkCfg) (st : PkState) (o : PkOut) (i : PkIn) : Bool :=
  inReset i.resetN i.reset == .ok false && pkValid c o i && !(o.sop == .one && !st.pkt.isEmpty) && (o.sop == .one || st.inPkt) && o.eop == .one

/-- One iteration of the coroutine (monitors/avalon.py:169-252). -/
def pkTaskStep (t : PkTask) (st : PkState) (o : PkOut) (i : PkIn) : Except PyErr (PkState × Option PkReport) :=
  if !t.emptyKey && pkAtLast t.cfg st o i then .error .keyError else pkStep t.cfg st o i

/-- The coroutine on a trace: what it passes to `_recv`, and the state or the exception at the end. -/
def pkTaskMonitor (t : PkTask) : List (PkOut × PkIn) → PkState → List PkReport × Except PyErr PkState
  | [], st => ([], .ok st)
  | (o, i) :: r, st =>
    match pkTaskStep t st o i with
    | .error e => ([], .error e)
    | .ok (st, rep) =>
      let (l, e) := pkTaskMonitor t r st
      (rep.toList ++ l, e)

/-! ### Callables without `__qualname__` -/

/-- A Python callable. Functions, methods and classes have `__qualname__`; `functools.partial` objects and other instances with `__call__`
do not. -/
structure PyCallable (T σ : Type) where
  hasQualname : Bool
  call : Callback T σ

/-- `Monitor.add_callback` (monitors/__init__.py:88-97): the argument of the log message is computed first. -/
def Monitor.addCallable {T σ : Type} (m : Monitor T σ) (c : PyCallable T σ) : Monitor T σ × Option PyErr :=
  if c.hasQualname then (m.addCallback c.call, none) else (m, some .attributeError)

/-- `Scoreboard.add_interface` with a `compare_fn` (scoreboard.py:192-206). -/
def World.addCompare {T : Type} (w : World T) (mid : Nat) (info : MonInfo) (exp : Expected T) (c : PyCallable T (SB T)) :
    World T × Option PyErr :=
  let w := { w with sb := { w.sb with expected := dictSet w.sb.expected mid exp } }
  if !info.isMonitor then (w, some .typeError)
  else
    match (w.mons mid).addCallable c with
    | (m, e) => (w.setMon mid m, e)

end CocotbBus
