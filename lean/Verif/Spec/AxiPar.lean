import Verif.Model.AxiPar
import Verif.Spec.AxiUse

/-! # Reads and writes at the same time -/

namespace CocotbBus.Spec

/-- A step of the task that writes. -/
def WriteStep : AxOp → Prop
  | .write .. => True
  | .liteWrite .. => True
  | .pause n => 0 < n
  | _ => False

/-- A step of the task that reads. -/
def ReadStep : AxOp → Prop
  | .read .. => True
  | .liteRead .. => True
  | .pause n => 0 < n
  | _ => False

/-- The number of clock edges after which a task has made its first `k` steps (`none`: it has not). -/
def axEnd (c : AxCfg) (ops : List AxOp) (s : Sim AxIn AxAll) (k : Nat) : Option Nat :=
  if k ≤ ops.length then
    match (axUse c (ops.take k) s).2 with
    | (t, .ok _ _) => some t.length
    | _ => none
  else none

/-- The number of data beats of a step. -/
def axBeats : AxOp → Nat
  | .read _ len _ _ _ => len.toNat
  | .liteRead .. => 1
  | _ => 0

/-- The words of a read of `len` beats, if `view n` is the memory when beat `n` is sent. FIXED: each word is that of its beat. INCR and
WRAP: the bytes of a beat are those of the memory when it is sent (the words of an unaligned INCR burst are made of the bytes of two
beats). -/
def ReadSeen (sz : Nat) (burst : AxiBurst) (a len : Nat) (view : Nat → Nat → Byte) (words : List LogicArray) : Prop :=
  match burst with
  | .fixed => words = (List.range len).map (fun i => memWord (asBits (view i)) a (sz - a % sz))
  | _ => ∃ seen, words = readFrom sz burst a len seen ∧ ∀ n < len, ∀ b, InBeat sz burst a len n b → seen b = view n b

/-- The words returned by a step. -/
def AxSeen (c : AxCfg) : AxOp → (Nat → Nat → Byte) → List LogicArray → Prop
  | .read a len size burst _, view, words => ReadSeen (bytesPerBeat c size) burst a len.toNat view words
  | .liteRead a _, view, words => ReadSeen c.dataBytes .incr a 1 view words
  | _, _, words => words = []

/-- The bytes addressed by a step. -/
def axByte (c : AxCfg) : AxOp → Nat → Prop
  | .read a len size burst _, b => ∃ n < len.toNat, InBeat (bytesPerBeat c size) burst a len.toNat n b
  | .liteRead a _, b => InBeat c.dataBytes .incr a 1 0 b
  | .write a v size burst _ _ _ _, b => ∃ n < v.length, InBeat (bytesPerBeat c size) burst a v.length n b
  | .liteWrite a _ _ _ _ _, b => InBeat c.dataBytes .incr a 1 0 b
  | .pause _, _ => False

end CocotbBus.Spec
