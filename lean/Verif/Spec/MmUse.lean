import Verif.Model.MmUse
import Verif.Spec.AvalonMemory
import Verif.Spec.AvalonMM

/-! # A master and a memory on one bus -/

namespace CocotbBus.Spec

/-- The signals driven by the memory as the master's inputs. -/
def mmSees (o : MemOut) : MmIn := ⟨o.waitrequest, o.readdatavalid, o.readdata⟩

/-- The signals driven by the master as the memory's inputs. -/
def memSees (o : MmOut) : MemIn :=
  { read := o.read, write := o.write, address := o.address, writedata := o.writedata, byteenable := o.byteenable }

/-- What a coroutine drives in cycle `n`: a record if that cycle is over, else (or if the test has ended) what it drives now. -/
def drivenIn {I O α : Type} (r : Res I O α) (n : Nat) : O := ((r.1[n]?).map Prod.fst).getD r.2.sim.out

/-- Two executions are part of the same simulation, up to the same cycle: in each cycle the master's inputs are what the memory
drives in it, and the memory's inputs are what the master drives in it. -/
structure Wired {α β : Type} (sM : Sim MmIn MmOut) (rM : Res MmIn MmOut α) (sS : Sim MemIn MemOut) (rS : Res MemIn MemOut β) : Prop where
  cycles : sS.rest.length = sM.rest.length
  toMaster : ∀ (n : Nat) i, (sM.cur :: sM.rest)[n]? = some i → i = mmSees (drivenIn rS n)
  toMemory : ∀ (n : Nat) i, (sS.cur :: sS.rest)[n]? = some i → i = memSees (drivenIn rM n)

/-- The master and the memory agree on the signals there are and on their widths. The master has no burstcount. -/
structure OneBus (c : MmCfg) (m : MemCfg) : Prop where
  noBurst : m.hasBurst = false
  width : c.dataW = m.width
  readdata : m.hasReaddata = c.hasRead
  read : m.hasRead = c.hasRead
  writedata : m.hasWritedata = c.hasWrite
  write : m.hasWrite = c.hasWrite
  rdv : m.hasRdv = c.hasRdv
  wait : m.hasWait = c.hasWait
  be : m.beW = c.beW ∧ ∀ w, c.beW = some w → w = m.width / 8

/-- The operation is possible on this bus. -/
def OpOk (c : MmCfg) : MmOp → Prop
  | .write a v => c.hasWrite = true ∧ a < 2 ^ c.addrW ∧ v < 2 ^ c.dataW
  | .read a => c.hasRead = true ∧ a < 2 ^ c.addrW
  | .pause _ => True

/-- What the reads return if they are reads of a memory: the last value written to the address, or the initial one, or X's. -/
def readsOf (w : Nat) : (Nat → Option Nat) → List MmOp → List LogicArray
  | _, [] => []
  | mem, .write a v :: r => readsOf w (fun b => if b = a then some v else mem b) r
  | mem, .read a :: r => (match mem a with
    | some v => natToBits w v
    | none => List.replicate w .x) :: readsOf w mem r
  | mem, .pause _ :: r => readsOf w mem r

/-- The clock edges the operations take at most, with a memory of the given latency. -/
def edgesFor (lat : Nat) : List MmOp → Nat
  | [] => 0
  | .write _ _ :: r => 2 + edgesFor lat r
  | .read _ :: r => 2 + lat + edgesFor lat r
  | .pause n :: r => n + edgesFor lat r

/-- A word of a memory as it appears on the bus. -/
def memWordBits (w : Nat) : Option Nat → LogicArray
  | some v => natToBits w v
  | none => List.replicate w .x

/-- What a bus shows in cycle `t` if the words of `past` (cycle, word) appeared on it and each stayed until the next; `first` was there before. -/
def showing (first : LogicArray) (past : List (Nat × LogicArray)) (t : Nat) : LogicArray :=
  ((past.filter (fun e => decide (e.1 ≤ t))).getLast?.map Prod.snd).getD first

/-- The cycle of the last word. -/
def lastCycle (past : List (Nat × LogicArray)) : Nat := (past.getLast?.map Prod.fst).getD 0

/-- What the reads return if each of them takes what the bus shows two cycles after it was called, while the word it asked for appears `lat`
cycles later than that (`lat k` for the `k`-th read), and later than those asked for before. -/
def lateReads (w : Nat) (lat : Nat → Nat) (first : LogicArray) : Nat → List (Nat × LogicArray) → (Nat → Option Nat) → List MmOp → List LogicArray
  | _, _, _, [] => []
  | now, past, mem, .write a v :: r => lateReads w lat first (now + 2) past (fun b => if b = a then some v else mem b) r
  | now, past, mem, .pause k :: r => lateReads w lat first (now + k) past mem r
  | now, past, mem, .read a :: r =>
    let past' := past ++ [(max (now + 2 + lat past.length) (lastCycle past + 1), memWordBits w (mem a))]
    showing first past' (now + 2) :: lateReads w lat first (now + 2) past' mem r

end CocotbBus.Spec
