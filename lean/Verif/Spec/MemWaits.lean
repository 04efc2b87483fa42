import Verif.Spec.MemOps

/-!
# Sequences of bursts on an Avalon memory that inserts wait states

What a master does depends on waitrequest, so the bursts are recognised in the cycles as they were: the signals of the memory and of the master.
-/

namespace CocotbBus.Spec

/-- A write burst in the cycles in which it is performed, from the first one with the request to the one in which the last beat is accepted. Address and
burst count are there until the first beat is accepted, write stays asserted while waitrequest is 1 (and, without `gaps`, altogether), and the beats
accepted are `words`. -/
structure MemWriteSeen (gaps : Bool) (addr : Nat) (words : List Nat) (cycles : List (MemOut × MemIn)) : Prop where
  starts : ∃ q l, cycles = q :: l ∧ q.2.write = .one
  ends : ∃ l q, cycles = l ++ [q] ∧ q.2.write = .one ∧ q.1.waitrequest = .zero
  noRead : ∀ q ∈ cycles, q.2.read ≠ .one
  asks : ∀ a q b, cycles = a ++ q :: b → acceptedBeats a = [] →
    isResolvable q.2.address = true ∧ bitsToNat q.2.address = addr ∧ isResolvable q.2.burstcount = true ∧ bitsToNat q.2.burstcount = words.length
  keeps : MasterKeeps gaps words.length cycles
  beats : acceptedBeats cycles = words

/-- A read burst in the cycles in which it is performed: the request stays until a cycle in which waitrequest is 0; then nothing is requested while
the words are returned, that is for the read latency and one cycle per word. -/
structure MemReadSeen (c : MemCfg) (addr count : Nat) (cycles : List (MemOut × MemIn)) : Prop where
  parts : ∃ waiting accepted later, cycles = waiting ++ accepted :: later ∧
    (∀ q ∈ waiting, q.1.waitrequest = .one) ∧ accepted.1.waitrequest = .zero ∧
    (∀ q ∈ waiting ++ [accepted], q.2.read = .one ∧ isResolvable q.2.address = true ∧ bitsToNat q.2.address = addr ∧
      isResolvable q.2.burstcount = true ∧ bitsToNat q.2.burstcount = count) ∧
    (∀ q ∈ later, q.2.read ≠ .one) ∧ c.readLatency + count ≤ later.length
  noWrite : ∀ q ∈ cycles, q.2.write ≠ .one

/-- The cycles consist of the bursts, one after the other, and cycles without a request between them. -/
inductive SeenOps (c : MemCfg) (gaps : Bool) : List (MemOut × MemIn) → List BurstOp → Prop
  | none : SeenOps c gaps [] []
  | idle (q : MemOut × MemIn) (l : List (MemOut × MemIn)) (ops : List BurstOp) : MemQuiet q.2 → SeenOps c gaps l ops → SeenOps c gaps (q :: l) ops
  | write (addr : Nat) (words : List Nat) (cycles l : List (MemOut × MemIn)) (ops : List BurstOp) :
      MemWriteSeen gaps addr words cycles → SeenOps c gaps l ops → SeenOps c gaps (cycles ++ l) (.write addr words :: ops)
  | read (addr count : Nat) (cycles l : List (MemOut × MemIn)) (ops : List BurstOp) :
      MemReadSeen c addr count cycles → SeenOps c gaps l ops → SeenOps c gaps (cycles ++ l) (.read addr count :: ops)

/-- No wait of zero cycles is ever drawn. -/
def NeverZeroWait (c : MemCfg) (rand : Nat → Nat) : Prop := ∀ k, rand k % 4 = 0 → rand (k + 1) % (c.maxWaitReqLen + 1) ≠ 0

end CocotbBus.Spec
