import Verif.Model.Opb

/-!
# Vocabulary for the OPB theorems

A transfer is described by the value `a₀` of xferAck at the moment the request is made and by the list `cs` of the values that the
peripheral's signals have, settled, in the cycles the master looks at after it: `cs[0]` in the cycle that begins with the first clock
edge after the request, and so on.
-/

namespace CocotbBus.Spec

/-- The peripheral's control signals are 0 or 1. -/
def Binary (v : Logic) : Prop := v = .zero ∨ v = .one

/-- Cycles `n-15` … `n` (1-based) exist and toutSup is low in each of them. -/
def Quiet16 (tout : List Logic) (n : Nat) : Prop := 16 ≤ n ∧ ∀ k : Nat, n - 16 ≤ k → k < n → tout[k]? = some .zero

/-- xferAck has been low since the request: at the request and in the cycles before the `n`-th. -/
def NoAckBefore (a₀ : Logic) (ack : List Logic) (n : Nat) : Prop := ∀ k : Nat, k < n → (a₀ :: ack)[k]? = some .zero

/-- The first run of 16 quiet cycles ends with the `n`-th cycle, no acknowledge before it. -/
def TimesOutAt (a₀ : Logic) (cs : List OpbIn) (n : Nat) : Prop :=
  Quiet16 (cs.map (·.toutSup)) n ∧ (∀ m : Nat, m < n → ¬ Quiet16 (cs.map (·.toutSup)) m) ∧ NoAckBefore a₀ (cs.map (·.xferAck)) n

/-- The first acknowledge is in the `n`-th cycle (0: at the request), and there has been no run of 16 quiet cycles up to it. -/
def AckedAt (a₀ : Logic) (cs : List OpbIn) (n : Nat) : Prop :=
  (∀ m : Nat, m ≤ n → ¬ Quiet16 (cs.map (·.toutSup)) m) ∧ NoAckBefore a₀ (cs.map (·.xferAck)) n ∧ (a₀ :: cs.map (·.xferAck))[n]? = some .one

/-- The signals `p` that a call in state `s` sees when it makes its request, and the cycles `cs` after it. With `sync` the request is
made just after the next clock edge, where a read of a signal gives the value from before the edge; the cycle `i` that begins with
that edge, the first one with select = 1, is one the master never looks at. Without `sync` it is made at once. -/
def AtRequest (sync : Bool) (s : Sim OpbIn OpbOut) (p : OpbIn) (cs : List OpbIn) : Prop :=
  match sync with
  | true => p = s.cur ∧ ∃ i, s.rest = i :: cs
  | false => s.phase ≠ .ro ∧ cs = s.rest ∧ p = match s.phase with
    | .edge => s.prev
    | _ => s.cur

/-- The request signals of a transfer. -/
def Requesting (c : OpbCfg) (a : Nat) (rnw : Logic) (o : OpbOut) : Prop :=
  o.select = .one ∧ o.rnw = rnw ∧ bitsToNat o.abus = a ∧ o.abus.length = c.addrW ∧ bitsToNat o.be = 15 ∧ o.busy = true

end CocotbBus.Spec
