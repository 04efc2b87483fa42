import Verif.Model.AxiMany
import Verif.Spec.AxiPar

/-! # A memory with several outstanding requests, used by many tasks -/

namespace CocotbBus.Spec

/-- A memory that accepts requests before it has answered earlier ones: its contents; the write addresses and write data beats it has
accepted and not yet carried out; how many writes it has carried out (or refused) and how many of them it has given a response to; the read
addresses it has accepted and not yet answered completely, how many beats of the answer to the first of them it has sent, and how many
reads it has answered completely. -/
structure AxPipe where
  mem : Nat → Byte
  aw : List AddrReq
  w : List WReq
  written : Nat
  responded : Nat
  ar : List AddrReq
  beats : Nat
  answered : Nat

/-- A memory that has seen no request. -/
def AxPipe.fresh (mem : Nat → Byte) : AxPipe := ⟨mem, [], [], 0, 0, [], 0, 0⟩

/-- As soon as the address of the next write and as many data beats as it has have been accepted they are stored, unless the memory
refuses: `wcode k` is the response to write number `k`, 0 is OKAY. -/
def AxPipe.commit (c : AxCfg) (wcode : Nat → Nat) (m : AxPipe) : AxPipe :=
  match m.aw with
  | [] => m
  | p :: aw =>
    let (a, size, burst, len) := p.decode c.dataBytes
    if len ≤ m.w.length then
      { m with
        mem := if wcode m.written = 0 then axiStoreAll c.dataBytes size burst a len 0 ((m.w.take len).map (fun w => (bitsToNat w.data, bitsToNat w.strb))) m.mem else m.mem
        aw := aw, w := m.w.drop len, written := m.written + 1 }
    else m

/-- What the memory has at one edge: transfers on AW, W, B, AR and R. Answers are given in the order of the requests. -/
def AxPipe.step (c : AxCfg) (wcode : Nat → Nat) (m : AxPipe) (q : AxAll × AxIn) : AxPipe :=
  let finished := match m.ar with
    | [] => false
    | p :: _ => rFire q.2 && m.beats + 1 == (p.decode c.dataBytes).2.2.2
  AxPipe.commit c wcode { m with
    aw := if (awStream c).xfer (q.1.1.1, q.2) then m.aw ++ [(awStream c).payload q.1.1.1] else m.aw
    w := if (wStream c).xfer (q.1.1.2, q.2) then m.w ++ [(wStream c).payload q.1.1.2] else m.w
    responded := if bFire q.2 && m.responded < m.written then m.responded + 1 else m.responded
    ar := (if finished then m.ar.tail else m.ar) ++ (if (arStream c).xfer (q.1.2, q.2) then [(arStream c).payload q.1.2] else [])
    beats := if finished then 0 else if rFire q.2 && !m.ar.isEmpty then m.beats + 1 else m.beats
    answered := if finished then m.answered + 1 else m.answered }

/-- The answers are those of the memory: if a write is to be answered, the response is that to it; while reads are outstanding, a data beat is
the next one of the first of them, has RLAST if it is its last one and its response (`rcode k n` is that of beat `n` of read number `k`),
and is right on the lanes of the bytes addressed by it if that is OKAY. -/
def AxPipe.Right (c : AxCfg) (wcode : Nat → Nat) (rcode : Nat → Nat → Nat) (m : AxPipe) (i : AxIn) : Prop :=
  (bFire i = true → m.responded < m.written → respIs i.bresp (wcode m.responded)) ∧
  (rFire i = true → ∀ p l, m.ar = p :: l → i.rdata.length = 8 * c.dataBytes ∧ respIs i.rresp (rcode m.answered m.beats) ∧
    let (a, size, burst, len) := p.decode c.dataBytes
    (rLast c i = true ↔ m.beats + 1 = len) ∧
    (rcode m.answered m.beats = 0 → ∀ b, InBeat size burst a len m.beats b → lane i.rdata (b % c.dataBytes) = byteBits (m.mem b)))

/-- The whole trace is that of a bus with such a memory. -/
def AxPipe.Serves (c : AxCfg) (wcode : Nat → Nat) (rcode : Nat → Nat → Nat) : AxPipe → List (AxAll × AxIn) → Prop
  | _, [] => True
  | m, q :: t => m.Right c wcode rcode q.2 ∧ AxPipe.Serves c wcode rcode (m.step c wcode q) t

/-- The memory after a trace. -/
def AxPipe.run (c : AxCfg) (wcode : Nat → Nat) (m : AxPipe) (t : List (AxAll × AxIn)) : AxPipe := t.foldl (AxPipe.step c wcode) m

/-- The number of clock edges until a moment of a simulation that starts with `s`. -/
def edgesAt {I O : Type} (s : Sim I O) (t : Moment) : Nat := s.rest.length - t.1

/-- A call of `write`. -/
def IsWrite : AxOp → Prop
  | .write .. => True
  | .liteWrite .. => True
  | _ => False

/-- A call of `read`. -/
def IsRead : AxOp → Prop
  | .read .. => True
  | .liteRead .. => True
  | _ => False

/-- What a call of `read` gets, if `code n` is the response of beat `n` of the answer and `view n` the memory when it is sent: the first
response that is not OKAY is raised, otherwise the words are returned. -/
def ReadGot (c : AxCfg) (code : Nat → Nat) (op : AxOp) (view : Nat → Nat → Byte) (x : Except PyErr (List LogicArray)) : Prop :=
  match (axCodes code op).find? (· ≠ 0) with
  | some e => x = .error (.axiProtocol e)
  | none => ∃ words, x = .ok words ∧ AxSeen c op view words

/-- The requirements on calls: each is legal and of the given kind, and is not made in the ReadOnly phase. -/
def CallsOk (c : AxCfg) (kind : AxOp → Prop) (calls : List (AxOp × Moment)) : Prop := ∀ x ∈ calls, AxOpOk c x.1 ∧ kind x.1 ∧ x.2.2 ≠ .ro

/-- Something is the case at less than `N` edges in a row. -/
def LessThan {α : Type} (N : Nat) (T : List α) (S : Nat → α → Prop) : Prop :=
  ∀ n, n + N ≤ T.length → ∃ j < N, ∃ q, T[n + j]? = some q ∧ ¬ S (n + j) q

/-- The memory does everything that is due within `N` edges: it accepts what is offered, gives the response to a write that it has carried out, and
sends the next data beat while reads are outstanding. -/
structure AxPipe.Prompt (N : Nat) (c : AxCfg) (wcode : Nat → Nat) (mem : Nat → Byte) (T : List (AxAll × AxIn)) : Prop where
  aw : LessThan N T (fun _ q => (awStream c).valid q.1.1.1 = true ∧ (awStream c).ready q.2 = false)
  w : LessThan N T (fun _ q => (wStream c).valid q.1.1.2 = true ∧ (wStream c).ready q.2 = false)
  ar : LessThan N T (fun _ q => (arStream c).valid q.1.2 = true ∧ (arStream c).ready q.2 = false)
  b : LessThan N T (fun n q => let m := AxPipe.run c wcode (AxPipe.fresh mem) (T.take n); m.responded < m.written ∧ bFire q.2 = false)
  r : LessThan N T (fun n q => (AxPipe.run c wcode (AxPipe.fresh mem) (T.take n)).ar ≠ [] ∧ rFire q.2 = false)

end CocotbBus.Spec
