import Verif.Model.Coro

/-! # `_wait_for_signal`: `drivers/__init__.py:270-281` -/

namespace CocotbBus
open Coro
variable {I O : Type}

/-- `await RisingEdge(signal)` for a signal that is not 1: until its settled value is 1. Simplification as for `awaitChange`: a signal changes
at most once per clock cycle. -/
def awaitRise (f : I → Logic) : M I O Unit :=
  loop (fun (_ : Unit) => do
    awaitEdge
    nextStep
    let j ← inp
    pure (if f j = .one then .inr () else .inl ())) ()

/-- `BusDriver._wait_for_signal` (drivers/__init__.py:270-281). -/
def waitP (f : I → Logic) : M I O Unit := do
  readOnly
  loop (fun (_ : Unit) => do
    let i ← inp
    if (← ofExcept (intOf (f i))) = 1 then pure (.inr ())
    else do
      awaitRise f
      readOnly
      pure (.inl ())) ()
  nextStep

end CocotbBus
