import Verif.Model.Coro
import Verif.Model.Compat
import Verif.Model.AvalonST

/-!
# `AvalonMemory`: `drivers/avalon.py:200-510`

Simplifications. Log output is left out. `random.randint(a, b)` is `a + r % (b - a + 1)` and `random.choice` of the four
elements takes number `r % 4`, where `r` is the next number of an arbitrary sequence `rand`. `int(addr / size)` is integer division: the floating point
division of the code is exact for addresses below 2^50. `ZeroDivisionError` is `other 1`. Addresses and memory contents are natural numbers.
-/

namespace CocotbBus
open Coro

/-- Signals driven by the master. -/
structure MemIn where
  read : Logic := .zero
  write : Logic := .zero
  address : LogicArray := []
  writedata : LogicArray := []
  byteenable : LogicArray := []
  burstcount : LogicArray := []
  deriving DecidableEq, Repr

/-- A word waiting to be returned: `True` (nothing known: all X) or a number (drivers/avalon.py:392, 399). -/
inductive MemResp where
  | unknown
  | value (n : Nat)
  deriving DecidableEq, Repr

/-- Signals driven by the memory; then its Python state: the dictionary `_mem`, the list `_responses` (`none`: nothing in that
cycle) and the number of random numbers used so far. -/
structure MemOut where
  readdata : LogicArray
  readdatavalid : Logic
  waitrequest : Logic
  mem : Nat → Option Nat
  responses : List (Option MemResp)
  drawn : Nat

/-- Signals present and parameters (drivers/avalon.py:203-232, 252-267). `width` is `_width`. -/
structure MemCfg where
  width : Nat
  hasReaddata : Bool := true
  hasWritedata : Bool := true
  hasRead : Bool := true
  hasWrite : Bool := true
  hasRdv : Bool := true
  hasWait : Bool := true
  hasBurst : Bool := false
  beW : Option Nat := none
  latMin : Nat := 1
  latMax : Nat := 1
  readLatency : Nat := 1
  writeBurstWaitReq : Bool := true
  maxWaitReqLen : Nat := 4
  deriving DecidableEq, Repr

/-- `dataByteSize` (drivers/avalon.py:254, 262). -/
def MemCfg.size (c : MemCfg) : Nat := c.width / 8

/-- `_burstread` (drivers/avalon.py:285-287). -/
def MemCfg.burstRead (c : MemCfg) : Bool := c.hasBurst && c.hasRdv

/-- `AvalonMemory.__init__` (drivers/avalon.py:252-296): the signals and the state after construction, or an exception. -/
def memInit (c : MemCfg) (memory : Nat → Option Nat) (o : MemOut) : Except PyErr MemOut :=
  if !c.hasReaddata && !c.hasWritedata then .error (.assertion "useless memory")
  else if c.hasBurst && !c.hasWait then .error .attributeError
  else .ok
    { o with
      mem := memory
      responses := []
      readdatavalid := if c.hasRdv then .zero else o.readdatavalid
      waitrequest :=
        if c.hasBurst then Logic.ofBool c.writeBurstWaitReq
        else if c.hasWait then .zero else o.waitrequest }

/-- The next random number. -/
def memDraw (rand : Nat → Nat) : M MemIn MemOut Nat := do
  let o ← getOut
  setPy (fun o => { o with drawn := o.drawn + 1 })
  pure (rand o.drawn)

/-- `random.randint(a, b)`: ValueError for an empty range. -/
def memRandint (rand : Nat → Nat) (a b : Nat) : M MemIn MemOut Nat := do
  let r ← memDraw rand
  if b < a then raise .valueError else pure (a + r % (b - a + 1))

/-- `_pad` (drivers/avalon.py:298-302). -/
def memPad (c : MemCfg) (rand : Nat → Nat) : M MemIn MemOut Unit := do
  let l ← memRandint rand c.latMin c.latMax
  setPy (fun o => { o with responses := o.responses ++ List.replicate (l - o.responses.length) none })

/-- The value put on readdata (drivers/avalon.py:311-316). -/
def memRespBits (c : MemCfg) : MemResp → Except PyErr BinVal
  | .unknown => createBinaryStr (List.replicate c.width .x) c.width
  | .value n => createBinaryInt n c.width

/-- `_do_response` (drivers/avalon.py:304-320). -/
def memDoResponse (c : MemCfg) : M MemIn MemOut Unit := do
  let o ← getOut
  setPy (fun o => { o with responses := o.responses.tail })
  match o.responses.head? with
  | some (some resp) => do
    let v ← ofExcept (memRespBits c resp)
    write (fun o => { o with readdata := v.bits })
    when c.hasRdv (write (fun o => { o with readdatavalid := .one }))
  | _ => when c.hasRdv (write (fun o => { o with readdatavalid := .zero }))

/-- A read that is not a burst (drivers/avalon.py:381-399). -/
def memSingleRead (c : MemCfg) (rand : Nat → Nat) : M MemIn MemOut Unit := do
  memPad c rand
  let i ← inp
  let addr ← ofExcept (toUnsigned i.address)
  setPy (fun o => { o with responses := o.responses ++ [some (match o.mem addr with
    | none => .unknown
    | some v => .value v)] })

/-- The word made of `size` consecutive bytes from `base` on (drivers/avalon.py:444-449): KeyError if one is missing. -/
def memGather (mem : Nat → Option Nat) (base : Nat) : Nat → Nat → Except PyErr Nat
  | 0, _ => .ok 0
  | n + 1, i =>
    match mem (base + i) with
    | none => .error .keyError
    | some r => do
      let v ← memGather mem base n (i + 1)
      pure (r <<< (i * 8) + v)

/-- The response for one word of a burst (drivers/avalon.py:434-456). -/
def memBurstResp (c : MemCfg) (mem : Nat → Option Nat) (base : Nat) : Except PyErr MemResp :=
  match mem base with
  | none => .ok .unknown
  | some _ => do
    let v ← memGather mem base c.size 0
    pure (.value v)

/-- The words of a read burst (drivers/avalon.py:433-458). -/
def memBurstWords (c : MemCfg) (addr : Nat) : Nat → Nat → M MemIn MemOut Unit
  | 0, _ => pure ()
  | n + 1, count => do
    let o ← getOut
    let resp ← ofExcept (memBurstResp c o.mem ((addr + count) * c.size))
    setPy (fun o => { o with responses := o.responses ++ [some resp] })
    awaitEdge
    memDoResponse c
    memBurstWords c addr n (count + 1)

/-- A read burst (drivers/avalon.py:400-458). -/
def memBurstRead (c : MemCfg) : M MemIn MemOut Unit := do
  let i ← inp
  let addr ← ofExcept (toUnsigned i.address)
  when (c.size == 0) (raise (.other 1))
  let burstcount ← ofExcept (toUnsigned i.burstcount)
  when c.beW.isNone (raise .attributeError)
  nextStep
  write (fun o => { o with waitrequest := .one })
  awaitEdge
  awaitEdge
  write (fun o => { o with waitrequest := .zero })
  edges c.readLatency
  memBurstWords c (addr / c.size) burstcount 0

/-- `mask` and `oldmask` (drivers/avalon.py:471-475), for lanes `i, i+1, ..` (`n` of them). -/
def memMasks (byteenable : Nat) : Nat → Nat → Nat × Nat → Nat × Nat
  | 0, _, m => m
  | n + 1, i, (mask, oldmask) =>
    if byteenable &&& 2 ^ i ≠ 0 then memMasks byteenable n (i + 1) (mask ||| 0xFF <<< (8 * i), oldmask)
    else memMasks byteenable n (i + 1) (mask, oldmask ||| 0xFF <<< (8 * i))

/-- The word stored by a write under byte enables (drivers/avalon.py:462-480). -/
def memMerge (c : MemCfg) (data byteenable olddata : Nat) : Nat :=
  let m := memMasks byteenable (c.width / 8) 0 (0, 0)
  (data &&& m.1) ||| (olddata &&& m.2)

/-- `self._mem[a] = v`. -/
def memSet (mem : Nat → Option Nat) (a v : Nat) : Nat → Option Nat := fun b => if b = a then some v else mem b

/-- A write that is not a burst (drivers/avalon.py:458-484). -/
def memSingleWrite (c : MemCfg) : M MemIn MemOut Unit := do
  let i ← inp
  let addr ← ofExcept (toUnsigned i.address)
  let data ← ofExcept (toUnsigned i.writedata)
  match c.beW with
  | some _ => do
    let be ← ofExcept (toUnsigned i.byteenable)
    setPy (fun o => { o with mem := memSet o.mem addr (memMerge c data be ((o.mem addr).getD 0)) })
  | none => setPy (fun o => { o with mem := memSet o.mem addr data })

/-- `for waitreq in range(n): ...` of `_waitrequest` (drivers/avalon.py:362-364). -/
def memHold : Nat → M MemIn MemOut Unit
  | 0 => pure ()
  | n + 1 => do
    write (fun o => { o with waitrequest := .one })
    awaitEdge
    memHold n

/-- `_waitrequest` (drivers/avalon.py:357-369). -/
def memWaitrequest (c : MemCfg) (rand : Nat → Nat) : M MemIn MemOut Unit :=
  when c.writeBurstWaitReq do
    let r ← memDraw rand
    if r % 4 = 0 then do
      let m ← memRandint rand 0 c.maxWaitReqLen
      memHold m
    else nextStep
    write (fun o => { o with waitrequest := .zero })

/-- `while self.bus.write.value == 0: await NextTimeStep()` (drivers/avalon.py:493-494). Simplification: every cycle is
visited by a time step between its edges. -/
def memWaitWrite : M MemIn MemOut Unit := do
  let i ← inp
  if i.write = .zero then do
    nextStep
    loop (fun (_ : Unit) => do
      let i ← inp
      if i.write = .zero then do
        awaitEdge
        nextStep
        pure (.inl ())
      else pure (.inr ())) ()
  else pure ()

/-- The bytes `i, i+1, ...` (`n` of them) of a data word into memory (drivers/avalon.py:351-355). -/
def memScatter (data byteaddr : Nat) : Nat → Nat → (Nat → Option Nat) → (Nat → Option Nat)
  | 0, _, mem => mem
  | n + 1, i, mem => memScatter data byteaddr n (i + 1) (memSet mem (byteaddr + i) ((data >>> (i * 8)) &&& 0xFF))

/-- `_writing_byte_value` (drivers/avalon.py:348-355), and the evaluation of the data for the log after it (498-502). -/
def memStore (c : MemCfg) (byteaddr : Nat) : M MemIn MemOut Unit := do
  nextStep
  let i ← inp
  let data ← ofExcept (toUnsigned i.writedata)
  setPy (fun o => { o with mem := memScatter data byteaddr c.size 0 o.mem })

/-- The beats of a write burst (drivers/avalon.py:492-506). -/
def memBurstBeats (c : MemCfg) (rand : Nat → Nat) (addr : Nat) : Nat → Nat → M MemIn MemOut Unit
  | 0, _ => pure ()
  | n + 1, count => do
    memWaitWrite
    memStore c (addr + count * c.size)
    awaitEdge
    memWaitrequest c rand
    memBurstBeats c rand addr n (count + 1)

/-- A write burst (drivers/avalon.py:485-509, with `_write_burst_addr`, 322-346). -/
def memBurstWrite (c : MemCfg) (rand : Nat → Nat) : M MemIn MemOut Unit := do
  memWaitrequest c rand
  let i ← inp
  let addr ← ofExcept (toUnsigned i.address)
  when (c.size == 0) (raise (.other 1))
  when c.beW.isNone (raise .attributeError)
  let burstcount ← ofExcept (toUnsigned i.burstcount)
  memBurstBeats c rand addr burstcount 0
  when c.writeBurstWaitReq (write (fun o => { o with waitrequest := .one }))

/-- The read half of one iteration of `_respond` (drivers/avalon.py:379-458). -/
def memReadPart (c : MemCfg) (rand : Nat → Nat) : M MemIn MemOut Unit :=
  when c.hasReaddata do
    when (!c.hasRead) (raise .attributeError)
    let i ← inp
    if i.read = .one then
      if c.burstRead then memBurstRead c else memSingleRead c rand
    else pure ()

/-- The write half (drivers/avalon.py:460-509). -/
def memWritePart (c : MemCfg) (rand : Nat → Nat) : M MemIn MemOut Unit :=
  when c.hasWritedata do
    when (!c.hasWrite) (raise .attributeError)
    let i ← inp
    if i.write = .one then
      if c.hasBurst then memBurstWrite c rand else memSingleWrite c
    else pure ()

/-- One iteration of `_respond` (drivers/avalon.py:374-509). -/
def memCycle (c : MemCfg) (rand : Nat → Nat) : M MemIn MemOut Unit := do
  awaitEdge
  memDoResponse c
  readOnly
  memReadPart c rand
  memWritePart c rand

/-- `_respond` (drivers/avalon.py:371-509). -/
def memRespond (c : MemCfg) (rand : Nat → Nat) : M MemIn MemOut Unit :=
  loop (fun (_ : Unit) => do
    memCycle c rand
    pure (.inl ())) ()

/-! ### `_avalon_properties` (drivers/avalon.py:214-220, 235-237)

The dictionary belongs to the class. Constructing an instance with `avl_properties` writes into it. -/

/-- The properties that have an effect. -/
structure AvlProps where
  readLatency : Nat := 1
  writeBurstWaitReq : Bool := true
  maxWaitReqLen : Nat := 4
  deriving DecidableEq, Repr

/-- `avl_properties` as given by the user: some of the keys. -/
structure AvlGiven where
  readLatency : Option Nat := none
  writeBurstWaitReq : Option Bool := none
  maxWaitReqLen : Option Nat := none
  deriving DecidableEq, Repr

/-- drivers/avalon.py:235-237: the class dictionary after constructing an instance. -/
def avlConstruct (cls : AvlProps) (given : AvlGiven) : AvlProps :=
  { readLatency := given.readLatency.getD cls.readLatency
    writeBurstWaitReq := given.writeBurstWaitReq.getD cls.writeBurstWaitReq
    maxWaitReqLen := given.maxWaitReqLen.getD cls.maxWaitReqLen }

/-- The class dictionary after a history of constructions. Every instance looks its properties up here, whenever it uses
them (drivers/avalon.py:290, 359, 361, 430, 508). -/
def avlClass (history : List AvlGiven) : AvlProps := history.foldl avlConstruct {}

end CocotbBus
