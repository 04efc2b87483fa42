import Verif.Model.Coro
import Verif.Model.Bus

/-!
# `src/cocotb_bus/drivers/__init__.py`: BitDriver, BusDriver, ValidatedBusDriver, socket attachment

Generators are finite lists of pairs of natural numbers. (An infinite generator behaves, on any finite execution, like
each of its prefixes that is long enough not to be exhausted in that execution.)
-/

namespace CocotbBus
open Coro

/-! ### BitDriver -/

/-- The `while True` loop of `_cr_twiddler` (drivers/__init__.py:61-68). `next` on an exhausted generator
raises StopIteration, which a coroutine turns into RuntimeError. -/
def twiddle {I : Type} : List (Nat × Nat) → M I Logic Unit
  | [] => raise .runtimeError
  | (on, off) :: r => do
    write (fun _ => .one)
    edges on
    write (fun _ => .zero)
    edges off
    twiddle r

/-- `_cr_twiddler(generator)` (drivers/__init__.py:52-68); `stored` is `self._generator`. -/
def crTwiddler {I : Type} (stored given : Option (List (Nat × Nat))) : M I Logic Unit :=
  match given, stored with
  | none, none => raise (.other 0)
  | some g, _ => twiddle g
  | none, some g => twiddle g

/-- `stop()` (drivers/__init__.py:48-50): `started` tells whether `start` was called. -/
def bitStop (started : Bool) : Except PyErr Unit :=
  if started then .ok () else .error .attributeError

/-! ### BusDriver -/

/-- What an assignment `target.value = ...` can be applied to. -/
inductive PyTarget where
  | signal (h : Handle)   -- a simulator handle: drives the signal
  | bus                   -- the `Bus` object: an ordinary Python attribute, `Bus` (bus.py) defines neither a
                          -- `value` property nor `__setattr__`
  deriving DecidableEq, Repr

/-- Signal values, and the Python attributes set on the `Bus` object. -/
structure BusState (V : Type) where
  signals : Store V
  attrs : List (String × (String → Option V))

/-- `target.value = x`. Assigning an object to a signal is not used by the code modelled here and would raise;
it is modelled for signals by the attribute `pick` of the object. -/
def assignValue {V : Type} (target : PyTarget) (pick : String) (x : String → Option V) (st : BusState V) : BusState V :=
  match target with
  | .signal h =>
    match x pick with
    | some v => { st with signals := st.signals.set h v }
    | none => st
  | .bus => { st with attrs := dictSet st.attrs "value" x }

/-- `BusDriver._driver_send` (drivers/__init__.py:259-268): `self.bus.value = transaction`. -/
def busDriverSend {I V : Type} (txn : String → Option V) (sync : Bool) : M I (BusState V) Unit := do
  if sync then awaitEdge else pure ()
  write (assignValue .bus "value" txn)

/-! ### ValidatedBusDriver -/

/-- `self.on`: `True`, or a number of cycles (0 is falsy, like `False`). -/
inductive OnVal where
  | always
  | count (n : Nat)
  deriving DecidableEq, Repr

/-- `self.on`, `self.off`, `self.valid_generator`. -/
structure Valids where
  on : OnVal
  off : Nat
  gen : Option (List (Nat × Nat))
  deriving DecidableEq, Repr

/-- `while not self.on: ... next(self.valid_generator)` (drivers/__init__.py:338-348). -/
def nextPair : List (Nat × Nat) → Nat → Valids
  | [], off => ⟨.always, off, some []⟩
  | (on, off) :: r, _ => if on = 0 then nextPair r off else ⟨.count on, off, some r⟩

/-- `_next_valids` (drivers/__init__.py:328-354). -/
def nextValids (v : Valids) : Valids :=
  match v.gen with
  | none => ⟨.always, 0, none⟩
  | some l => nextPair l v.off

/-- `set_valid_generator` (drivers/__init__.py:356-359); in `__init__` (lines 323-326) `on`, `off` are `None` before. -/
def setValidGenerator (g : Option (List (Nat × Nat))) : Valids := nextValids ⟨.count 0, 0, g⟩

/-- `if not self.on` (drivers/avalon.py:566, 714, 803). -/
def Valids.isOff (v : Valids) : Bool := v.on == .count 0

/-- `if self.on is not True and self.on: self.on -= 1` (drivers/avalon.py:575-576, 723-724, 812-813). -/
def Valids.consume (v : Valids) : Valids :=
  match v.on with
  | .count (n + 1) => { v with on := .count n }
  | _ => v

/-- The gap-and-consume part common to the Avalon-ST drivers (drivers/avalon.py:565-576, 713-724, 802-813);
`lower` is `self.bus.valid.value = 0`. -/
def gapM {I O : Type} (lower : O → O) (v : Valids) : M I O Valids :=
  if v.isOff then do
    write lower
    edges v.off
    pure (nextValids v).consume
  else pure v.consume

/-! ### polled_socket_attachment -/

/-- Outcome of `sock.recv(4096)` on a non-blocking socket. -/
inductive SockRes where
  | data (b : Bytes)
  | wouldBlock            -- EAGAIN / EWOULDBLOCK
  | error (e : PyErr)
  deriving DecidableEq, Repr

/-- State of the coroutine. -/
inductive SockEnd where
  | running
  | closed
  | raised (e : PyErr)
  deriving DecidableEq, Repr

/-- `polled_socket_attachment` (drivers/__init__.py:362-384): the argument lists the socket's answers, one poll per rising edge;
returns the payloads appended to the driver, the number of polls made, and how the coroutine ended. -/
def socketAttach : List SockRes → List Bytes × Nat × SockEnd
  | [] => ([], 0, .running)
  | .wouldBlock :: r => let (a, n, e) := socketAttach r; (a, n + 1, e)
  | .error e :: _ => ([], 1, .raised e)
  | .data b :: r =>
    if b.length > 0 then let (a, n, e) := socketAttach r; (b :: a, n + 1, e)
    else ([], 1, .closed)

end CocotbBus
