import Verif.Model.AvalonMemory
import Verif.Spec.Bytes

/-! # What an Avalon memory should do

Cycles are numbered; cycle 0 is the one in which the memory is started, so the first request it sees is that of cycle 1.
-/

namespace CocotbBus.Spec

/-- Byte `j` of a number. -/
def byteOf (n j : Nat) : Byte := BitVec.ofNat 8 (n / 256 ^ j)

/-- A read (write) is requested in a cycle. -/
def memReads (c : MemCfg) (i : MemIn) : Bool := c.hasReaddata && (i.read == .one)
def memWrites (c : MemCfg) (i : MemIn) : Bool := c.hasWritedata && (i.write == .one)

/-- The byte written to byte `j` of the word at `a` in a cycle, if any. -/
def wroteByte (c : MemCfg) (a j : Nat) (i : MemIn) : Option Byte :=
  if memWrites c i && bitsToNat i.address == a && (c.beW.isNone || (bitsToNat i.byteenable).testBit j)
  then some (byteOf (bitsToNat i.writedata) j) else none

/-- Byte `j` of the word at `a` after the cycles `past`: the last one written, or else the initial one (0 if there is none). -/
def lastByte (c : MemCfg) (init : Nat → Option Nat) (past : List MemIn) (a j : Nat) : Byte :=
  (past.reverse.findSome? (wroteByte c a j)).getD (byteOf ((init a).getD 0) j)

/-- The word at `a` was initialised or (at least partly) written to. -/
def memKnown (c : MemCfg) (init : Nat → Option Nat) (past : List MemIn) (a : Nat) : Bool :=
  (init a).isSome || past.any (fun i => memWrites c i && bitsToNat i.address == a)

/-- The word at `a` after the cycles `past`. -/
def wordAt (c : MemCfg) (init : Nat → Option Nat) (past : List MemIn) (a : Nat) : LogicArray :=
  if memKnown c init past a then natToBits c.width (leVal ((List.range (c.width / 8)).map (lastByte c init past a)))
  else List.replicate c.width .x

/-- The reads requested in the cycles following `past`: the number of the cycle and the word `word past address` to be returned. -/
def readsFrom {α : Type} (c : MemCfg) (word : List MemIn → Nat → α) : List MemIn → List MemIn → List (Nat × α)
  | _, [] => []
  | past, i :: r =>
    (if memReads c i then [(past.length + 1, word past (bitsToNat i.address))] else []) ++ readsFrom c word (past ++ [i]) r

/-- When the words are to be returned: the `m`-th `lat m` cycles after the cycle following its request, but not before the one
after the previous response. -/
def responsesFrom {α : Type} (lat : Nat → Nat) : Nat → Nat → List (Nat × α) → List (Nat × α)
  | _, _, [] => []
  | m, last, (k, w) :: r =>
    let t := max (last + 1) (k + 1 + lat m)
    (t, w) :: responsesFrom lat (m + 1) t r

/-- The words that have to appear on readdata and when. -/
def memResponses (c : MemCfg) (init : Nat → Option Nat) (lat : Nat → Nat) (cycles : List MemIn) : List (Nat × LogicArray) :=
  responsesFrom lat 0 0 (readsFrom c (wordAt c init) [] cycles)

/-- The signals sampled in a cycle are defined where they matter. -/
def MemClean (c : MemCfg) (i : MemIn) : Prop :=
  (memReads c i = true → isResolvable i.address = true) ∧
  (memWrites c i = true → isResolvable i.address = true ∧ isResolvable i.writedata = true ∧ i.writedata.length = c.width ∧
    (c.beW.isSome → isResolvable i.byteenable = true))

/-- A memory of whole bytes without bursts, the signals it uses being there. (With burstcount, writes are bursts; reads are if there is
also readdatavalid.) -/
structure SingleMem (c : MemCfg) : Prop where
  bytes : c.width = 8 * (c.width / 8)
  noBurst : c.hasBurst = false ∨ (c.hasRdv = false ∧ c.hasWritedata = false)
  read : c.hasReaddata = true → c.hasRead = true
  write : c.hasWritedata = true → c.hasWrite = true
  lat : c.latMin ≤ c.latMax

/-- The latency drawn with random number `k`. -/
def memLat (c : MemCfg) (rand : Nat → Nat) (k : Nat) : Nat := c.latMin + rand k % (c.latMax - c.latMin + 1)

/-- A memory just started: no responses waiting, contents that fit in words. -/
structure MemFresh (c : MemCfg) (init : Nat → Option Nat) (k0 : Nat) (o : MemOut) : Prop where
  mem : o.mem = init
  fits : ∀ a v, init a = some v → v < 256 ^ (c.width / 8)
  resp : o.responses = []
  drawn : o.drawn = k0

end CocotbBus.Spec

/-! ## Bursts -/

namespace CocotbBus.Spec

/-- The pins driven by the memory: readdata, readdatavalid, waitrequest. -/
def memPins (o : MemOut) : LogicArray × Logic × Logic := (o.readdata, o.readdatavalid, o.waitrequest)

/-- The pins in all the cycles an execution has gone through, including the one it is in. -/
def memShown {α : Type} (r : Res MemIn MemOut α) : List (LogicArray × Logic × Logic) :=
  r.1.map (fun q => memPins q.1) ++ [memPins r.2.sim.out]

/-- A burst memory of whole bytes, with all its signals. -/
structure BurstMem (c : MemCfg) : Prop where
  bytes : c.width = 8 * (c.width / 8)
  pos : 0 < c.width
  burst : c.hasBurst = true
  rdv : c.hasRdv = true
  be : c.beW.isSome = true
  read : c.hasReaddata = true ∧ c.hasRead = true
  write : c.hasWritedata = true ∧ c.hasWrite = true

/-- The bytes `a, a+1, ...` of memory as a little-endian word. -/
def bytesWord (c : MemCfg) (mem : Nat → Option Nat) (a : Nat) : Nat :=
  leVal ((List.range (c.width / 8)).map (fun j => BitVec.ofNat 8 ((mem (a + j)).getD 0)))

/-- What a read burst returns for the word at byte address `a`: the word, or X's if its first byte is not there. -/
def burstWord (c : MemCfg) (mem : Nat → Option Nat) (a : Nat) : LogicArray :=
  match mem a with
  | none => List.replicate c.width .x
  | some _ => natToBits c.width (bytesWord c mem a)

/-- All bytes of the word at `a` are there (or not even the first). -/
def WordThere (c : MemCfg) (mem : Nat → Option Nat) (a : Nat) : Prop :=
  mem a = none ∨ ∀ j < c.width / 8, ∃ v, mem (a + j) = some v ∧ v < 256

/-- The pins in the cycles of a read burst, from the one with the request on: waitrequest for two cycles, then the read latency,
then one word per cycle. `rd` is what readdata was before. -/
def burstReadPins (c : MemCfg) (mem : Nat → Option Nat) (rd : LogicArray) (addr count : Nat) : List (LogicArray × Logic × Logic) :=
  [(rd, .zero, .one), (rd, .zero, .one)] ++ List.replicate (c.readLatency + 1) (rd, .zero, .zero) ++
    (List.range count).map (fun k => (burstWord c mem (addr + k * (c.width / 8)), .one, .zero))

/-- The pins of a memory that looks at requests for read bursts only while it is not returning one: in each cycle it shows the next pins of the
burst it is returning, whatever is requested meanwhile; when there are none left a request starts a burst in the same cycle, and without one
nothing changes but readdatavalid. One entry per cycle, `last` being the pins before. -/
def readsServed (c : MemCfg) (mem : Nat → Option Nat) : List (LogicArray × Logic × Logic) → LogicArray × Logic × Logic → List MemIn →
    List (LogicArray × Logic × Logic)
  | _, _, [] => []
  | p :: returning, _, _ :: later => p :: readsServed c mem returning p later
  | [], last, i :: later =>
    if i.read = .one then
      match burstReadPins c mem last.1 (bitsToNat i.address) (bitsToNat i.burstcount) with
      | [] => []
      | p :: returning => p :: readsServed c mem returning p later
    else (last.1, .zero, last.2.2) :: readsServed c mem [] (last.1, .zero, last.2.2) later

/-- The words a read burst asks for. -/
def wordsAsked (c : MemCfg) (mem : Nat → Option Nat) (i : MemIn) : List LogicArray :=
  (List.range (bitsToNat i.burstcount)).map (fun k => burstWord c mem (bitsToNat i.address + k * (c.width / 8)))

/-- The words shown with readdatavalid. -/
def wordsShown (pins : List (LogicArray × Logic × Logic)) : List LogicArray := (pins.filter (fun p => p.2.1 == .one)).map Prod.fst

/-- The cycles a read burst takes, from the one with the request on. -/
def burstCycles (c : MemCfg) (i : MemIn) : Nat := c.readLatency + 3 + bitsToNat i.burstcount

/-- A read burst the memory can serve: address and burst count are known, the address is that of a word, and the words are there. -/
structure BurstAsked (c : MemCfg) (mem : Nat → Option Nat) (i : MemIn) : Prop where
  address : isResolvable i.address = true
  count : isResolvable i.burstcount = true
  aligned : bitsToNat i.address % (c.width / 8) = 0
  there : ∀ k < bitsToNat i.burstcount, WordThere c mem (bitsToNat i.address + k * (c.width / 8))

/-- The data beats accepted by the memory: write=1 and waitrequest=0 at a clock edge. -/
def acceptedBeats (t : List (MemOut × MemIn)) : List Nat :=
  (t.filter (fun q => q.2.write == .one && q.1.waitrequest == .zero)).map (fun q => bitsToNat q.2.writedata)

/-- The memory with the little-endian bytes of `words` stored from `addr` on, and nothing else changed. -/
def storeWords (c : MemCfg) (mem : Nat → Option Nat) (addr : Nat) (words : List Nat) : Nat → Option Nat := fun a =>
  if addr ≤ a ∧ a < addr + words.length * (c.width / 8) then
    (words[(a - addr) / (c.width / 8)]?).map (fun w => (byteOf w ((a - addr) % (c.width / 8))).toNat)
  else mem a

/-- All the cycles of an execution: those gone through, and the one it is in. -/
def cyclesOf {α : Type} (r : Res MemIn MemOut α) : List (MemOut × MemIn) := r.1 ++ [(r.2.sim.out, r.2.sim.cur)]

/-- The master's side during a burst with `b` beats to go, in consecutive cycles: write stays asserted while waitrequest is 1. Without
`gaps`, it also stays asserted after a beat has been accepted, until all are. -/
def MasterKeeps (gaps : Bool) : Nat → List (MemOut × MemIn) → Prop
  | _, [] => True
  | _, [_] => True
  | b, q :: q' :: l =>
    let b' := b - (acceptedBeats [q]).length
    (0 < b' → q.2.write = .one → (gaps = false ∨ q.1.waitrequest = .one) → q'.2.write = .one) ∧ MasterKeeps gaps b' (q' :: l)

/-- None of the next `n` waits, from random number `k` on, is one of zero cycles: a wait takes one number, and a second one for its
length if the first is a multiple of 4. -/
def NoZeroWait (c : MemCfg) (rand : Nat → Nat) : Nat → Nat → Prop
  | 0, _ => True
  | n + 1, k =>
    if rand k % 4 = 0 then rand (k + 1) % (c.maxWaitReqLen + 1) ≠ 0 ∧ NoZeroWait c rand n (k + 2) else NoZeroWait c rand n (k + 1)

/-- The signals of a write burst are defined where they matter. -/
def BeatClean (i : MemIn) : Prop := (i.write = .zero ∨ i.write = .one) ∧ (i.write = .one → isResolvable i.writedata = true)

end CocotbBus.Spec
