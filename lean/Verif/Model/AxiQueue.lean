import Verif.Model.Base

/-!
# Concurrent transactions of `AXI4Master`: the five locks (`drivers/amba.py:143-147, 205, 285, 381, 487, 512`)

cocotb's `Lock` is first come, first served, and `start_soon` runs tasks in the order they were started in, so the locks are queues in the
order of the calls; the first in the queue holds the lock. What a holder does while it has the lock is in `Model/AxiMaster.lean`; here
only the handshakes count. Transactions are numbered in the order of the calls. Nothing is assumed about how long anything takes: an
execution is a list of operations. Simplification: BRESP, RRESP and the data have defined values, so that the holder of a response lock
does not raise before it has seen its response.
-/

namespace CocotbBus

/-! ### Writes -/

/-- What can be seen. -/
inductive AqEv where
  | aw (t : Nat)                 -- address handshake of transaction `t`
  | w (t beat : Nat) (last : Bool) -- data handshake: beat number `beat` of transaction `t`, and WLAST
  | b (t resp : Nat)             -- transaction `t` takes this as its response
  | lost (resp : Nat)            -- a response (BREADY is always high) while no transaction is waiting for one
  | failed (t : Nat)             -- the caller of `t` gets an exception from sending the address
  deriving DecidableEq, Repr

inductive AqOp where
  | call (beats : Nat)           -- `write` is called with this many values
  | awDone                       -- AWREADY: the address in flight is accepted
  | awRaise                      -- sending the address raises (the address does not fit AWADDR)
  | wBeat                        -- WREADY: the data beat in flight is accepted
  | resp (r : Nat)               -- BVALID with this response
  deriving DecidableEq, Repr

/-- State: number of values of the transactions called so far; the queues of the three locks; the number of beats the holder of the
data lock has sent; transactions whose address and whose data task has ended. -/
structure Aq where
  lens : List Nat
  aw : List Nat
  w : List Nat
  beat : Nat
  b : List Nat
  awEnded : List Nat
  wEnded : List Nat
  log : List AqEv
  deriving DecidableEq, Repr

def Aq.init : Aq := ⟨[], [], [], 0, [], [], [], []⟩

/-- One operation. `call`: drivers/amba.py:371-379, both tasks are started. `awDone`, `wBeat`: a task ends and leaves its lock
(drivers/amba.py:205-232, 285-314); when both have ended the `await Combine` (379) returns and the transaction queues for the response
lock (381). `resp`: drivers/amba.py:381-393, the holder of the lock takes it. -/
def Aq.step (s : Aq) : AqOp → Option Aq
  | .call n => some { s with lens := s.lens ++ [n], aw := s.aw ++ [s.lens.length], w := s.w ++ [s.lens.length] }
  | .awDone =>
    match s.aw with
    | [] => none
    | t :: r => some { s with aw := r, awEnded := s.awEnded ++ [t], b := if t ∈ s.wEnded then s.b ++ [t] else s.b, log := s.log ++ [.aw t] }
  | .awRaise =>
    match s.aw with
    | [] => none
    | t :: r => some { s with aw := r, log := s.log ++ [.failed t] }
  | .wBeat =>
    match s.w with
    | [] => none
    | t :: r =>
      if s.beat + 1 < s.lens.getD t 0 then some { s with beat := s.beat + 1, log := s.log ++ [.w t s.beat false] }
      else some { s with w := r, beat := 0, wEnded := s.wEnded ++ [t], b := if t ∈ s.awEnded then s.b ++ [t] else s.b, log := s.log ++ [.w t s.beat true] }
  | .resp r =>
    match s.b with
    | [] => some { s with log := s.log ++ [.lost r] }
    | t :: q => some { s with b := q, log := s.log ++ [.b t r] }

def Aq.run (s : Aq) : List AqOp → Option Aq
  | [] => some s
  | o :: r =>
    match s.step o with
    | none => none
    | some s' => s'.run r

/-! ### Reads -/

inductive ArEv where
  | ar (t : Nat)                         -- address handshake
  | r (t : Nat) (v : Nat) (last : Bool)  -- transaction `t` takes this beat
  | lost (v : Nat)                       -- a beat while no transaction is waiting
  deriving DecidableEq, Repr

inductive ArOp where
  | call                                 -- `read` is called
  | arDone                               -- ARREADY
  | arRaise                              -- sending the address raises
  | beat (v : Nat) (last : Bool)         -- RVALID
  deriving DecidableEq, Repr

/-- State: number of calls, the queues of the two locks. -/
structure Ar where
  calls : Nat
  ar : List Nat
  r : List Nat
  log : List ArEv
  deriving DecidableEq, Repr

def Ar.init : Ar := ⟨0, [], [], []⟩

/-- One operation. `arDone`: drivers/amba.py:487-510, then the transaction queues for the data lock (512). `beat`: drivers/amba.py:512-542. -/
def Ar.step (s : Ar) : ArOp → Option Ar
  | .call => some { s with calls := s.calls + 1, ar := s.ar ++ [s.calls] }
  | .arDone =>
    match s.ar with
    | [] => none
    | t :: q => some { s with ar := q, r := s.r ++ [t], log := s.log ++ [.ar t] }
  | .arRaise =>
    match s.ar with
    | [] => none
    | _ :: q => some { s with ar := q }
  | .beat v last =>
    match s.r with
    | [] => some { s with log := s.log ++ [.lost v] }
    | t :: q => some { s with r := if last then q else t :: q, log := s.log ++ [.r t v last] }

def Ar.run (s : Ar) : List ArOp → Option Ar
  | [] => some s
  | o :: r =>
    match s.step o with
    | none => none
    | some s' => s'.run r

end CocotbBus
