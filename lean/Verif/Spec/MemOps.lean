import Verif.Spec.AvalonMemory

/-! # Sequences of bursts on an Avalon memory -/

namespace CocotbBus.Spec

/-- A burst: the words written from a byte address on, or how many words are read from it. -/
inductive BurstOp where
  | write (addr : Nat) (words : List Nat)
  | read (addr count : Nat)
  deriving DecidableEq, Repr

/-- No request. -/
def MemQuiet (i : MemIn) : Prop := i.read ≠ .one ∧ i.write ≠ .one

/-- The cycles in which a master performs a burst, up to its next one. A write: one beat per cycle, address and burst count in the
first one, and at least one cycle without request after the last one. A read: the request in the first cycle; it may stay on the bus, but
no other is made before the words have been returned. -/
def Performs (c : MemCfg) (op : BurstOp) (cycles : List MemIn) : Prop :=
  match op with
  | .write addr words => ∃ first beats pause, cycles = first :: beats ++ pause ∧
      first.read ≠ .one ∧ isResolvable first.address = true ∧ bitsToNat first.address = addr ∧
      isResolvable first.burstcount = true ∧ bitsToNat first.burstcount = words.length ∧
      (∀ i ∈ first :: beats, i.write = .one ∧ isResolvable i.writedata = true) ∧ (first :: beats).map (fun i => bitsToNat i.writedata) = words ∧
      pause ≠ [] ∧ ∀ i ∈ pause, MemQuiet i
  | .read addr count => ∃ first later, cycles = first :: later ∧
      first.read = .one ∧ isResolvable first.address = true ∧ bitsToNat first.address = addr ∧
      isResolvable first.burstcount = true ∧ bitsToNat first.burstcount = count ∧
      (∀ i ∈ cycles, i.write ≠ .one) ∧ burstCycles c first ≤ cycles.length ∧ ∀ i ∈ cycles.drop (burstCycles c first), i.read ≠ .one

/-- The address is that of a word. -/
def BurstOp.Aligned (c : MemCfg) : BurstOp → Prop
  | .write addr _ => addr % (c.width / 8) = 0
  | .read addr _ => addr % (c.width / 8) = 0

/-- Of every word all bytes are there, or not even the first. -/
def WholeWords (c : MemCfg) (mem : Nat → Option Nat) : Prop := ∀ a, a % (c.width / 8) = 0 → WordThere c mem a

/-- What the bytes in memory are after some bursts. -/
def memAfter (c : MemCfg) : (Nat → Option Nat) → List BurstOp → Nat → Option Nat
  | mem, [] => mem
  | mem, .write addr words :: ops => memAfter c (storeWords c mem addr words) ops
  | mem, .read _ _ :: ops => memAfter c mem ops

/-- The words the reads have to return: those in memory at that time. -/
def wordsRead (c : MemCfg) : (Nat → Option Nat) → List BurstOp → List LogicArray
  | _, [] => []
  | mem, .write addr words :: ops => wordsRead c (storeWords c mem addr words) ops
  | mem, .read addr count :: ops => (List.range count).map (fun k => burstWord c mem (addr + k * (c.width / 8))) ++ wordsRead c mem ops

/-- The words the writes write. -/
def wordsWritten : List BurstOp → List Nat
  | [] => []
  | .write _ words :: ops => words ++ wordsWritten ops
  | .read _ _ :: ops => wordsWritten ops

end CocotbBus.Spec
