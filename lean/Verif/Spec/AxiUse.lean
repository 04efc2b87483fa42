import Verif.Model.AxiUse
import Verif.Spec.AxiMaster

/-! # An AXI4 memory on the bus, and what a test should read from it -/

namespace CocotbBus.Spec

/-- A memory slave that watches the bus: its contents; the write address and the write data beats it has accepted and not yet
carried out; the read address it has accepted and how many beats of the answer it has sent; the response it owes to a write. It may
refuse requests: beat `n` of request number `k` is answered with the response code `code k n` (0 is OKAY; a write has beat 0 only),
and `k` requests have been answered or carried out so far. -/
structure AxMem where
  mem : Nat → Byte
  aw : Option AddrReq
  w : List WReq
  ar : Option (AddrReq × Nat)
  b : Option Nat
  k : Nat
  code : Nat → Nat → Nat

/-- A memory with nothing outstanding that has answered `k` requests. -/
def AxMem.idle (code : Nat → Nat → Nat) (k : Nat) (mem : Nat → Byte) : AxMem := ⟨mem, none, [], none, none, k, code⟩

/-- As soon as the address and all data beats of a burst have been accepted they are stored, unless the memory refuses; the response
is then due. -/
def AxMem.commit (c : AxCfg) (m : AxMem) : AxMem :=
  match m.aw with
  | none => m
  | some p =>
    let (a, size, burst, len) := p.decode c.dataBytes
    if m.w.length = len then
      { m with
        mem := if m.code m.k 0 = 0 then axiStoreAll c.dataBytes size burst a len 0 (m.w.map (fun w => (bitsToNat w.data, bitsToNat w.strb))) m.mem else m.mem
        aw := none, w := [], b := some (m.code m.k 0), k := m.k + 1 }
    else m

/-- What the memory has at one edge: transfers on AW, W, B, AR and R. -/
def AxMem.step (c : AxCfg) (m : AxMem) (q : AxAll × AxIn) : AxMem :=
  AxMem.commit c { m with
    aw := if (awStream c).xfer (q.1.1.1, q.2) then some ((awStream c).payload q.1.1.1) else m.aw
    w := if (wStream c).xfer (q.1.1.2, q.2) then m.w ++ [(wStream c).payload q.1.1.2] else m.w
    b := if bFire q.2 then none else m.b
    ar := if (arStream c).xfer (q.1.2, q.2) then some ((arStream c).payload q.1.2, 0)
      else match m.ar with
      | none => none
      | some (p, n) => if rFire q.2 then (if n + 1 = (p.decode c.dataBytes).2.2.2 then none else some (p, n + 1)) else some (p, n)
    k := match m.ar with
      | none => m.k
      | some (p, n) => if rFire q.2 ∧ n + 1 = (p.decode c.dataBytes).2.2.2 then m.k + 1 else m.k }

/-- The answers are those of the memory. The response to a write has its code. While a read is outstanding, a data beat has the code of
that beat, has RLAST if it is the last and, if its code is OKAY, is right on the lanes of the bytes addressed by it (anything may be on
the others). When responses and data beats are sent, and when addresses and data are accepted, is up to the memory. -/
def AxMem.Right (c : AxCfg) (m : AxMem) (i : AxIn) : Prop :=
  (bFire i = true → ∀ r, m.b = some r → respIs i.bresp r) ∧
  (rFire i = true → ∀ p n, m.ar = some (p, n) → i.rdata.length = 8 * c.dataBytes ∧ respIs i.rresp (m.code m.k n) ∧
    let (a, size, burst, len) := p.decode c.dataBytes
    (rLast c i = true ↔ n + 1 = len) ∧
    (m.code m.k n = 0 → ∀ b, InBeat size burst a len n b → lane i.rdata (b % c.dataBytes) = byteBits (m.mem b)))

/-- The whole trace is that of a bus with such a memory. -/
def AxMem.Serves (c : AxCfg) : AxMem → List (AxAll × AxIn) → Prop
  | _, [] => True
  | m, q :: t => m.Right c q.2 ∧ AxMem.Serves c (m.step c q) t

/-- The memory after a trace. -/
def AxMem.run (c : AxCfg) (m : AxMem) (t : List (AxAll × AxIn)) : AxMem := t.foldl (AxMem.step c) m

/-! ### A memory that answers in time -/

/-- For how many edges the master has been waiting for something: for an address or a data beat to be accepted; for the first or the
next beat of a read; for the response (`none`: no response is due). -/
structure AxWait where
  aw : Nat
  w : Nat
  ar : Nat
  r : Nat
  b : Option Nat
  deriving DecidableEq

/-- Nothing is waited for. -/
def AxWait.zero : AxWait := ⟨0, 0, 0, 0, none⟩

/-- One edge. A response is due from the edge on at which the last of address and data beats of a write is accepted. -/
def AxWait.step (c : AxCfg) (m : AxMem) (x : AxWait) (q : AxAll × AxIn) : AxWait where
  aw := if (awStream c).valid q.1.1.1 && !(awStream c).ready q.2 then x.aw + 1 else 0
  w := if (wStream c).valid q.1.1.2 && !(wStream c).ready q.2 then x.w + 1 else 0
  ar := if (arStream c).valid q.1.2 && !(arStream c).ready q.2 then x.ar + 1 else 0
  r := if (m.step c q).ar.isNone || (arStream c).xfer (q.1.2, q.2) || rFire q.2 then 0 else x.r + 1
  b := if (awStream c).xfer (q.1.1.1, q.2) && (m.step c q).aw.isNone || (wStream c).xfer (q.1.1.2, q.2) && (m.step c q).w.isEmpty then some 0
    else if bFire q.2 then none else x.b.map (· + 1)

/-- Nothing has been waited for at `N` edges or more. -/
def AxWait.Below (N : Nat) (x : AxWait) : Prop := x.aw < N ∧ x.w < N ∧ x.ar < N ∧ x.r < N ∧ ∀ k, x.b = some k → k < N

/-- In the whole trace the memory does everything that is due within `N` edges. -/
def AxMem.Prompt (N : Nat) (c : AxCfg) : AxMem → AxWait → List (AxAll × AxIn) → Prop
  | _, x, [] => x.Below N
  | m, x, q :: t => x.Below N ∧ AxMem.Prompt N c (m.step c q) (x.step c m q) t

/-- The number of edges within which a call ends if the memory does everything within `N` edges. -/
def axCost (N : Nat) : AxOp → Nat
  | .write _ v _ _ _ al dl sync => (if sync then 1 else 0) + max (al + N) (dl + N * v.length) + N
  | .read _ len _ _ sync => (if sync then 1 else 0) + N + N * len.toNat
  | .liteWrite _ _ _ al dl sync => (if sync then 1 else 0) + max (al + N) (dl + N) + N
  | .liteRead _ sync => (if sync then 1 else 0) + N + N
  | .pause n => n

/-! ### What the calls should do -/

/-- Bytes per beat: those of the bus unless given. -/
def bytesPerBeat (c : AxCfg) (size : Option Int) : Nat := (size.map Int.toNat).getD c.dataBytes

/-- One value stored from address `x` to the end of the block of `sz` bytes containing `x`, where its bytes are enabled. -/
def storeValue (sz x : Nat) (enabled : Nat → Bool) (v : Nat) (mem : Nat → Byte) : Nat → Byte := fun b =>
  if x ≤ b ∧ b < x + sz - x % sz ∧ enabled (b - x) = true then byteOf v (b - x) else mem b

/-- The values from number `i` on, each at the address of its beat. -/
def storeValues (sz : Nat) (burst : AxiBurst) (a len : Nat) (be : List (Option Nat)) : Nat → List Nat → (Nat → Byte) → (Nat → Byte)
  | _, [], mem => mem
  | i, v :: r, mem => storeValues sz burst a len be (i + 1) r (storeValue sz (beatAddr sz burst a len i) (axiEnabled be i) v mem)

/-- What `write` makes of a memory. INCR: the values one after the other from the start address on, as many bytes as fit into the
beats. FIXED and WRAP: each value at the address of its beat. -/
def writeTo (sz : Nat) (burst : AxiBurst) (a : Nat) (value : List Nat) (be : List (Option Nat)) (mem : Nat → Byte) : Nat → Byte :=
  match burst with
  | .incr => fun b =>
    if a ≤ b ∧ b < a + value.length * sz - a % sz ∧ axiEnabled be ((b - a) / sz) ((b - a) % sz) = true
    then byteOf (value.getD ((b - a) / sz) 0) ((b - a) % sz) else mem b
  | _ => storeValues sz burst a value.length be 0 value mem

/-- The bytes of a memory as they appear on the bus. -/
def asBits (mem : Nat → Byte) : Nat → LogicArray := fun b => byteBits (mem b)

/-- What `read` returns of a memory: `len` words. -/
def readFrom (sz : Nat) (burst : AxiBurst) (a len : Nat) (mem : Nat → Byte) : List LogicArray :=
  match burst with
  | .incr => (List.range len).map (fun i => memWord (asBits mem) (a + i * sz) (if i + 1 = len then sz - a % sz else sz))
  | _ => (List.range len).map (fun i => memWord (asBits mem) (beatAddr sz burst a len i) (sz - beatAddr sz burst a len i % sz))

/-- WRAP bursts that work (C58): aligned, and a multiple of the bus width long or starting at the boundary. -/
def WrapOk (c : AxCfg) (sz : Nat) (burst : AxiBurst) (a len : Nat) : Prop := burst = .wrap → a % sz = 0 ∧ (c.dataBytes ∣ sz * len ∨ a % (sz * len) = 0)

/-- The call is legal (and is not one of those known to fail: data latency with several values, C55, and short WRAP bursts, C58). -/
def AxOpOk (c : AxCfg) : AxOp → Prop
  | .write a v size burst be _ dl _ => c.full = true ∧ a < 2 ^ c.addrW ∧ be ≠ [] ∧ (dl = 0 ∨ v.length = 1) ∧
      Legal c a v.length size burst (bytesPerBeat c size) ∧ WrapOk c (bytesPerBeat c size) burst a v.length
  | .read a len size burst _ => c.full = true ∧ a < 2 ^ c.addrW ∧ Legal c a len size burst (bytesPerBeat c size) ∧
      WrapOk c (bytesPerBeat c size) burst a len.toNat
  | .liteWrite a _ _ _ _ _ => c.full = false ∧ a < 2 ^ c.addrW
  | .liteRead a _ => c.full = false ∧ a < 2 ^ c.addrW
  | .pause _ => True

/-- The memory after a call. -/
def axAfter (c : AxCfg) : AxOp → (Nat → Byte) → (Nat → Byte)
  | .write a v size burst be _ _ _, mem => writeTo (bytesPerBeat c size) burst a v be mem
  | .liteWrite a v be _ _ _, mem => writeTo c.dataBytes .incr a [v] [be] mem
  | _, mem => mem

/-- The words returned by a call. -/
def axReturns (c : AxCfg) : AxOp → (Nat → Byte) → List LogicArray
  | .read a len size burst _, mem => readFrom (bytesPerBeat c size) burst a len.toNat mem
  | .liteRead a _, mem => readFrom c.dataBytes .incr a 1 mem
  | _, _ => []

/-- The response codes a call gets, if `code n` is that of beat `n`. -/
def axCodes (code : Nat → Nat) : AxOp → List Nat
  | .write .. => [code 0]
  | .read _ len _ _ _ => (List.range len.toNat).map code
  | .liteWrite .. => [code 0]
  | .liteRead .. => [code 0]
  | .pause _ => []

/-- The number of requests made by a step. -/
def axRequests : AxOp → Nat
  | .pause _ => 0
  | _ => 1

/-- The outcome of a call: the first code that is not OKAY is raised as an error. -/
def axOutcome (c : AxCfg) (code : Nat → Nat) (op : AxOp) (mem : Nat → Byte) : Except PyErr (List LogicArray) :=
  match (axCodes code op).find? (· ≠ 0) with
  | some n => .error (.axiProtocol n)
  | none => .ok (axReturns c op mem)

/-- The memory after a call that may be refused. -/
def axNext (c : AxCfg) (code : Nat → Nat) (op : AxOp) (mem : Nat → Byte) : Nat → Byte :=
  if (axCodes code op).all (· = 0) then axAfter c op mem else mem

/-- The outcomes of a sequence of calls, the first of which is request number `k`. -/
def axOutcomes (c : AxCfg) (code : Nat → Nat → Nat) : Nat → List AxOp → (Nat → Byte) → List (Except PyErr (List LogicArray))
  | _, [], _ => []
  | k, op :: ops, mem => axOutcome c (code k) op mem :: axOutcomes c code (k + axRequests op) ops (axNext c (code k) op mem)

/-- The memory after a sequence of calls, some of which may be refused. -/
def axLast (c : AxCfg) (code : Nat → Nat → Nat) : Nat → List AxOp → (Nat → Byte) → (Nat → Byte)
  | _, [], mem => mem
  | k, op :: ops, mem => axLast c code (k + axRequests op) ops (axNext c (code k) op mem)

/-! ### A memory that refuses nothing -/

/-- The words returned by a sequence of calls. -/
def axReads (c : AxCfg) : List AxOp → (Nat → Byte) → List (List LogicArray)
  | [], _ => []
  | op :: ops, mem => axReturns c op mem :: axReads c ops (axAfter c op mem)

/-- The memory after a sequence of calls. -/
def axFinal (c : AxCfg) : List AxOp → (Nat → Byte) → (Nat → Byte)
  | [], mem => mem
  | op :: ops, mem => axFinal c ops (axAfter c op mem)

/-- The response codes of a memory that refuses nothing. -/
def allOkay : Nat → Nat → Nat := fun _ _ => 0

end CocotbBus.Spec
