import Verif.Model.AxiMaster
import Verif.Spec.Axi
import Verif.Spec.AvalonMM

/-! # AXI4 master: specification vocabulary -/

namespace CocotbBus.Spec
open Coro
variable {I O P α : Type}

/-- What a coroutine returned or raised; `none` while it is still waiting. -/
def result (r : Res I O α) : Option (Except PyErr α) :=
  match r.2 with
  | .ok a _ => some (.ok a)
  | .err e _ => some (.error e)
  | .blocked _ => none

/-- The trace of a program that makes the one request `p` on the stream `V`: a `Request`, and after its acceptance valid stays low. -/
def Stream.Once (V : Stream I O P) (p : P) (lead : Nat) (t : List (O × I)) (accepted : Bool) : Prop :=
  ∃ t1 t2, t = t1 ++ t2 ∧ V.Request p lead t1 accepted ∧ (accepted = false → t2 = []) ∧ ∀ q ∈ t2, V.valid q.1 = false

/-- The trace of a program that transfers the payloads `l`, with `ns` edges without valid before each: what has been transferred is
a prefix of `l`, and valid has not been low for more edges than that; when all are, valid stays low after the last transfer. -/
def Stream.Burst (V : Stream I O P) (l : List P) (ns : List Nat) (t : List (O × I)) (complete : Bool) : Prop :=
  ∃ t1 t2, t = t1 ++ t2 ∧ V.Holds t1 ∧ (t1.filter (fun q => !V.valid q.1)).length ≤ ns.sum ∧ (∀ q ∈ t2, V.valid q.1 = false) ∧
    if complete then V.taken t1 = l ∧ V.idleBefore 0 t1 = ns ∧ (l ≠ [] → ∃ q, t1.getLast? = some q ∧ V.xfer q = true)
    else t2 = [] ∧ ∃ k < l.length, V.taken t1 = l.take k ∧ V.idleBefore 0 t1 = ns.take k

/-- `m` is `l` with every element but the last repeated up to `n` more times. -/
inductive Stutters (n : Nat) : List P → List P → Prop
  | nil : Stutters n [] []
  | last (p : P) : Stutters n [p] [p]
  | cons (p : P) (k : Nat) (l m : List P) : k ≤ n → l ≠ [] → Stutters n l m → Stutters n (p :: l) (List.replicate (k + 1) p ++ m)

/-- An address beat: AxADDR and, on a full AXI4 bus, AxBURST, AxLEN and AxSIZE. -/
structure AddrReq where
  addr : LogicArray
  ctl : Option (LogicArray × LogicArray × LogicArray)
  deriving DecidableEq, Repr

/-- The write address channel. -/
def awStream (c : AxCfg) : Stream AxIn AddrOut AddrReq where
  valid o := o.valid == .one
  ready i := i.awready == .one
  payload o := ⟨o.addr, if c.full then some (o.burst, o.len, o.size) else none⟩

/-- The read address channel. -/
def arStream (c : AxCfg) : Stream AxIn AddrOut AddrReq where
  valid o := o.valid == .one
  ready i := i.arready == .one
  payload o := ⟨o.addr, if c.full then some (o.burst, o.len, o.size) else none⟩

/-- AxBURST as the AXI specification has it. -/
def burstCode : AxiBurst → Nat
  | .fixed => 0
  | .incr => 1
  | .wrap => 2

/-- The address beat of a burst of `len` beats of `size` bytes: AxLEN is `len - 1`, AxSIZE the base-2 logarithm of `size`. -/
def addrReq (c : AxCfg) (a len size : Nat) (burst : AxiBurst) : AddrReq :=
  ⟨natToBits c.addrW a, if c.full then some (natToBits c.burstW (burstCode burst), natToBits c.lenW (len - 1), natToBits c.sizeW (Nat.log2 size)) else none⟩

/-- The address beat fits the signals (AXI4: 8, 3 and 2 bits, so always for a checked request and an address in range). -/
def AddrFits (c : AxCfg) (a len size : Nat) : Prop :=
  a < 2 ^ c.addrW ∧ (c.full = true → 2 ≤ c.burstW ∧ len - 1 < 2 ^ c.lenW ∧ Nat.log2 size < 2 ^ c.sizeW)

/-- A data beat: WDATA, WSTRB and, if there is such a signal, WLAST. -/
structure WReq where
  data : LogicArray
  strb : LogicArray
  last : Option Logic
  deriving DecidableEq, Repr

/-- The write data channel. -/
def wStream (c : AxCfg) : Stream AxIn WOut WReq where
  valid o := o.valid == .one
  ready i := i.wready == .one
  payload o := ⟨o.data, o.strb, if c.hasWlast then some o.last else none⟩

/-- The data beats of a burst: WLAST on the last one only. -/
def wReqs (c : AxCfg) : List (Nat × Nat) → List WReq
  | [] => []
  | (d, s) :: r => ⟨natToBits (8 * c.dataBytes) d, natToBits c.dataBytes s, if c.hasWlast then some (if r = [] then .one else .zero) else none⟩ :: wReqs c r

/-- What stands on a channel: a payload, or nothing. -/
def Stream.offer {I O P : Type} (V : Stream I O P) (o : O) : Option P := if V.valid o then some (V.payload o) else none

/-- What stands on the channel in the records of a trace. -/
def offersOf {I O P : Type} (V : Stream I O P) (t : List (O × I)) : List (Option P) := t.map (fun q => V.offer q.1)
/-- Where the other side is ready. -/
def readiesOf {I O P : Type} (V : Stream I O P) (t : List (O × I)) : List Bool := t.map (fun q => V.ready q.2)

/-- What stands on a channel at each edge, given the edges at which the other side is ready: `shown` for `k` edges, then the first payload until it is
taken; it stays, although it was taken, for the `gap` edges before the next one. After the last there is nothing. -/
def offersWithGaps {P : Type} (gap : Nat) : Option P → Nat → List P → List Bool → List (Option P)
  | _, _, _, [] => []
  | shown, k + 1, l, _ :: r => shown :: offersWithGaps gap shown k l r
  | _, 0, [], _ :: r => none :: offersWithGaps gap none 0 [] r
  | _, 0, p :: l, ready :: r =>
    some p :: (if ready = false then offersWithGaps gap (some p) 0 (p :: l) r
      else if l = [] then offersWithGaps gap none 0 [] r
      else offersWithGaps gap (some p) gap l r)

/-- The payloads taken: those standing at the edges at which the other side is ready. -/
def takenAt {P : Type} (offers : List (Option P)) (readies : List Bool) : List P :=
  (offers.zip readies).filterMap (fun q => if q.2 then q.1 else none)

/-- The other side is not ready in the gaps: after each payload it takes but the last of `n` there are `gap` edges without ready. `k`: edges of
a gap still to come. -/
def CalmGaps (gap : Nat) : Nat → Nat → List Bool → Prop
  | _, _, [] => True
  | k + 1, n, ready :: r => ready = false ∧ CalmGaps gap k n r
  | 0, 0, _ => True
  | 0, n + 1, ready :: r => if ready = false then CalmGaps gap 0 (n + 1) r else if n = 0 then True else CalmGaps gap gap n r

/-- The records of one channel of a write. -/
def awTrace (t : List ((AddrOut × WOut) × AxIn)) : List (AddrOut × AxIn) := t.map (fun r => (r.1.1, r.2))
/-- The records of the other channel of a write. -/
def wTrace (t : List ((AddrOut × WOut) × AxIn)) : List (WOut × AxIn) := t.map (fun r => (r.1.2, r.2))

/-- A response is transferred. -/
def bFire (i : AxIn) : Bool := i.bvalid == .one && i.bready == .one
/-- The value of a response. -/
def respIs (v : LogicArray) (n : Nat) : Prop := isResolvable v = true ∧ bitsToNat v = n ∧ n < 4

/-- The records `t` while a write waits for its response, and what it returns (`none`: still waiting): the first response decides. -/
def WriteResponse (t : List (O × AxIn)) (res : Option (Except PyErr Unit)) : Prop :=
  (res = none ∧ ∀ q ∈ t, bFire q.2 = false) ∨
  (∃ t' q n, t = t' ++ [q] ∧ (∀ p ∈ t', bFire p.2 = false) ∧ bFire q.2 = true ∧ respIs q.2.bresp n ∧
    res = some (if n = 0 then .ok () else .error (.axiProtocol n)))

/-- A read data beat is transferred. -/
def rFire (i : AxIn) : Bool := i.rvalid == .one && i.rready == .one
/-- It is the last of its burst (AXI4-Lite: every beat is). -/
def rLast (c : AxCfg) (i : AxIn) : Bool := !c.full || i.rlast == .one

/-- The read data beats transferred in a trace. -/
def rBeats (t : List (AddrOut × AxIn)) : List AxIn := (t.map Prod.snd).filter rFire

/-- The records up to and including the last beat of a burst, no earlier beat being a last one. -/
def OneBurst (c : AxCfg) (t : List (AddrOut × AxIn)) : Prop :=
  ∃ t' q, t = t' ++ [q] ∧ rFire q.2 = true ∧ rLast c q.2 = true ∧ ∀ p ∈ t', rFire p.2 = true → rLast c p.2 = false

/-! ### Legal requests -/

/-- The burst lengths of AXI4. -/
def LengthOk (burst : AxiBurst) (length : Int) : Prop :=
  match burst with
  | .incr => 1 ≤ length ∧ length ≤ 256
  | .fixed => 1 ≤ length ∧ length ≤ 16
  | .wrap => length = 1 ∨ length = 2 ∨ length = 4 ∨ length = 8 ∨ length = 16

/-- The beat sizes of AXI4 on a data bus of `W` bytes: powers of two up to the width. -/
def SizeOk (W : Nat) (size : Int) : Prop := ∃ k : Nat, size = 2 ^ k ∧ 2 ^ k ≤ W

/-- All bytes addressed by a burst are in the 4 kB page of its start address. -/
def OnePage (size : Nat) (burst : AxiBurst) (a len : Nat) : Prop :=
  ∀ n < len, ∀ b, InBeat size burst a len n b → b / 4096 = a / 4096

/-- `sz` is the number of bytes per beat: that of the bus unless given. -/
def BeatSize (W : Nat) (size : Option Int) (sz : Nat) : Prop :=
  match size with
  | none => sz = W
  | some s => SizeOk W s ∧ s = sz

/-- A legal request, `sz` being the bytes per beat. -/
def Legal (c : AxCfg) (a : Nat) (length : Int) (size : Option Int) (burst : AxiBurst) (sz : Nat) : Prop :=
  BeatSize c.dataBytes size sz ∧ LengthOk burst length ∧
  (burst = .incr → OnePage sz .incr a length.toNat)

/-! ### The memory effect of a trace -/

/-- The records after the first transfer. -/
def Stream.after (V : Stream I O P) (t : List (O × I)) : List (O × I) := (t.dropWhile (fun q => !V.xfer q)).drop 1

/-- What a slave makes of an address beat: start address, bytes per beat, burst type (3 is reserved; taken as FIXED), number of beats. -/
def AddrReq.decode (W : Nat) (p : AddrReq) : Nat × Nat × AxiBurst × Nat :=
  match p.ctl with
  | none => (bitsToNat p.addr, W, .incr, 1)
  | some (burst, len, size) =>
    (bitsToNat p.addr, 2 ^ bitsToNat size, (match bitsToNat burst with | 1 => .incr | 2 => .wrap | _ => .fixed), bitsToNat len + 1)

/-- A byte memory after a write has been watched on the bus: the accepted data beats are stored according to the accepted address. -/
def busStore (c : AxCfg) (t : List ((AddrOut × WOut) × AxIn)) (mem : Nat → Byte) : Nat → Byte :=
  match (awStream c).taken (awTrace t) with
  | [] => mem
  | p :: _ =>
    let (a, size, burst, len) := p.decode c.dataBytes
    axiStoreAll c.dataBytes size burst a len 0 (((wStream c).taken (wTrace t)).map (fun w => (bitsToNat w.data, bitsToNat w.strb))) mem

/-- What `read` should do with the words and responses received. -/
def readOutcome (returnRresp : Bool) (words : List LogicArray) (resps : List Nat) : Except PyErr (List LogicArray ⊕ List (LogicArray × Nat)) :=
  if returnRresp then .ok (.inr (words.zip resps))
  else match resps.find? (fun r => decide (r ≠ 0)) with
  | some n => .error (.axiProtocol n)
  | none => .ok (.inl words)

/-- An AXI4 bus as in the specification: a data bus of 1, 2, 4, ..., 128 bytes, and 8, 3 and 2 bits for AxLEN, AxSIZE and AxBURST. -/
def Standard (c : AxCfg) : Prop := (∃ j ≤ 7, c.dataBytes = 2 ^ j) ∧ c.lenW = 8 ∧ c.sizeW = 3 ∧ c.burstW = 2

/-- A call can start: the channels driven are idle; `sync=False` may not be used in the ReadOnly phase. -/
def WriteReady (sync : Bool) (s : Sim AxIn (AddrOut × WOut)) : Prop :=
  (sync = true ∨ s.phase ≠ .ro) ∧ s.out.1.valid = .zero ∧ s.out.2.valid = .zero

def ReadReady (sync : Bool) (s : Sim AxIn AddrOut) : Prop := (sync = true ∨ s.phase ≠ .ro) ∧ s.out.valid = .zero

/-- The slave's responses are numbers below 4, its data words as wide as the bus (any bits of them may be X). -/
def GoodBeat (W : Nat) (i : AxIn) : Prop := rFire i = true → i.rdata.length = 8 * W ∧ ∃ n, respIs i.rresp n
def GoodResp (i : AxIn) : Prop := bFire i = true → ∃ n, respIs i.bresp n

end CocotbBus.Spec
