import Verif.Spec.Driver

/-! # Specification vocabulary for a killed driver (C131) -/

namespace CocotbBus.Spec
variable {T : Type}

/-- The events set and the callbacks called, in order. -/
def notices : List (DEv T) → List (DEv T)
  | [] => []
  | .event it :: r => .event it :: notices r
  | .callback it :: r => .callback it :: notices r
  | _ :: r => notices r

/-- What its caller is told of a transaction that was sent: its event, then its callback, as far as given. -/
def told (it : Item T) : List (DEv T) :=
  (if it.hasEvent then [.event it] else []) ++ (if it.hasCb then [.callback it] else [])

/-- The blocking `send()` calls in flight after a history, seen by their callers only: a call begins, or the `i`-th of those in flight returns. -/
def callsInFlight : List T → List (DOp T) → List T
  | c, [] => c
  | c, .send t :: r => callsInFlight (c ++ [t]) r
  | c, .sendReturn i :: r => callsInFlight (c.eraseIdx i) r
  | c, _ :: r => callsInFlight c r

end CocotbBus.Spec
