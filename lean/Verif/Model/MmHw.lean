import Verif.Model.MmUse

/-!
# The memory-mapped test

The memory of tests/designs/avalon_interface_module/mm_reader.sv, which `AvlMMRead` of
tests/test_cases/test_avalon_interface/test_avalon_interface.py:126-150 writes and reads through an `AvalonMaster`.
-/

namespace CocotbBus
open Coro

/-- The registers of the memory (mm_reader.sv:9-19; avl_mm_mini_if.sv:12-14). -/
structure MmHw where
  mem : Nat → LogicArray
  readdata : LogicArray
  rdv : Bool

/-- One clock edge (mm_reader.sv:11-20), in a memory of `words` words: what is behind the end is not written, and read as X. A word that is written and read at the
same edge is read as it was before. `readdatavalid` remains 1 after the first read. -/
def MmHw.step (words : Nat) (d : MmHw) (o : MmOut) : MmHw :=
  { mem := fun a => if o.write = .one ∧ a < words ∧ isResolvable o.address = true ∧ bitsToNat o.address = a then o.writedata else d.mem a
    readdata :=
      if o.read = .one then
        if isResolvable o.address = true ∧ bitsToNat o.address < words then d.mem (bitsToNat o.address) else List.replicate d.readdata.length .x
      else d.readdata
    rdv := d.rdv || o.read == .one }

/-- `readdata` and `readdatavalid` as the memory drives them (mm_reader.sv:16-19), in a trace and after it. -/
def MmHw.Drives (words : Nat) : MmHw → List (MmOut × MmIn) → MmIn → Prop
  | d, [], i => i.readdata = d.readdata ∧ i.readdatavalid = Logic.ofBool d.rdv
  | d, q :: t, i => (q.2.readdata = d.readdata ∧ q.2.readdatavalid = Logic.ofBool d.rdv) ∧ MmHw.Drives words (d.step words q.1) t i

/-- The memory after a trace (mm_reader.sv:11-20). -/
def MmHw.run (words : Nat) : MmHw → List (MmOut × MmIn) → MmHw
  | d, [] => d
  | d, q :: t => MmHw.run words (d.step words q.1) t

/-- The test (test_avalon_interface.py:141-150): each value is written to its address, then all are read; one edge after each of them. In the test the
values are 0 to 9. -/
def mmHwTest (values : List Nat) : List MmOp :=
  (values.zipIdx.flatMap fun x => [.write x.2 x.1, .pause 1]) ++ (List.range values.length).flatMap fun a => [.read a, .pause 1]

end CocotbBus
