import Verif.Model.AxiQueue

/-!
# Vocabulary for concurrent AXI transactions
-/

namespace CocotbBus.Spec

/-- The transactions whose addresses were sent, in this order. -/
def addresses (log : List AqEv) : List Nat := log.filterMap fun e => match e with
  | .aw t => some t
  | _ => none

/-- The data beats sent: transaction, number of the beat, WLAST. -/
def beats (log : List AqEv) : List (Nat × Nat × Bool) := log.filterMap fun e => match e with
  | .w t k l => some (t, k, l)
  | _ => none

/-- The responses taken: transaction and response. -/
def responses (log : List AqEv) : List (Nat × Nat) := log.filterMap fun e => match e with
  | .b t r => some (t, r)
  | _ => none

/-- The lengths of the write calls. -/
def callLens (ops : List AqOp) : List Nat := ops.filterMap fun o => match o with
  | .call n => some n
  | _ => none

/-- The responses of the slave. -/
def slaveResponses (ops : List AqOp) : List Nat := ops.filterMap fun o => match o with
  | .resp r => some r
  | _ => none

/-- All beats of a burst of `n` beats, from number `k` on: WLAST with the last one. -/
def burst (t k : Nat) : Nat → List (Nat × Nat × Bool)
  | 0 => []
  | 1 => [(t, k, true)]
  | n + 1 => (t, k, false) :: burst t (k + 1) n

/-- The bursts of transactions `t`, `t + 1`, ... of these lengths, one after the other. -/
def bursts (t : Nat) : List Nat → List (Nat × Nat × Bool)
  | [] => []
  | n :: r => burst t 0 n ++ bursts (t + 1) r

/-- The number of bursts of which the last beat was sent. -/
def endedBursts (log : List AqEv) : Nat := ((beats log).filter (·.2.2)).length

/-- A slave that answers in order: when it gives a response after `k` earlier ones it has accepted more than `k` addresses and the whole
of more than `k` bursts. -/
def InOrderSlave (ops : List AqOp) : Prop :=
  ∀ pre r post s, ops = pre ++ .resp r :: post → Aq.init.run pre = some s →
    (slaveResponses pre).length < (addresses s.log).length ∧ (slaveResponses pre).length < endedBursts s.log

/-- The addresses of reads sent. -/
def readAddresses (log : List ArEv) : List Nat := log.filterMap fun e => match e with
  | .ar t => some t
  | _ => none

/-- The beats taken: transaction, value, last. -/
def readBeats (log : List ArEv) : List (Nat × Nat × Bool) := log.filterMap fun e => match e with
  | .r t v l => some (t, v, l)
  | _ => none

/-- The number of calls of `read`. -/
def callReads (ops : List ArOp) : Nat := (ops.filter (· = .call)).length

/-- The beats of the slave. -/
def slaveBeats (ops : List ArOp) : List (Nat × Bool) := ops.filterMap fun o => match o with
  | .beat v l => some (v, l)
  | _ => none

/-- The number of finished bursts among beats. -/
def finished (l : List (Nat × Bool)) : Nat := (l.filter (·.2)).length

/-- Number the beats with the bursts they belong to, the first of which is number `k`: after a last beat comes the next burst. -/
def numbered (k : Nat) : List (Nat × Bool) → List (Nat × Nat × Bool)
  | [] => []
  | (v, l) :: r => (k, v, l) :: numbered (if l then k + 1 else k) r

/-- A slave that sends no beat before it has accepted the address of the burst it belongs to, and answers in the order of the addresses. -/
def InOrderReads (ops : List ArOp) : Prop :=
  ∀ pre v l post s, ops = pre ++ .beat v l :: post → Ar.init.run pre = some s → finished (slaveBeats pre) < (readAddresses s.log).length

end CocotbBus.Spec
