import Verif.Model.AvalonPkts
import Verif.Spec.AvalonST
import Verif.Spec.Stream
import Verif.Spec.Bytes

/-!
# Avalon-ST packets: specification

Packets as sequences of beats, independent of the driver and the monitor.
-/

namespace CocotbBus.Spec

/-- What the sink sees of a beat: optional signals only if the bus has them. -/
structure Beat where
  sop : Logic
  eop : Logic
  data : LogicArray
  empty : Option LogicArray
  channel : Option LogicArray
  deriving DecidableEq, Repr

/-- The packet bus as a valid/ready stream of beats. -/
def pkStream (c : PkCfg) : Stream PkIn PkOut Beat where
  valid o := o.valid == .one
  ready i := !c.hasReady || i.ready == .one
  payload o := ⟨o.sop, o.eop, o.data, if c.useEmpty then some o.empty else none,
    if c.channelW.isSome then some o.channel else none⟩

/-- Pin values of an `n`-byte word with the given first bytes (the others 0): the first byte is in the highest or in the
lowest bits. -/
def wordBits (highFirst : Bool) (n : Nat) (b : Bytes) : LogicArray :=
  if highFirst then joinBytes (b ++ List.replicate (n - b.length) 0)
  else joinBytes (List.replicate (n - b.length) 0 ++ b.reverse)

/-- Number of beats of a packet of `len` bytes on an `n`-byte bus. -/
def beatCount (n len : Nat) : Nat := (len + n - 1) / n

/-- The beats of a packet on an `n`-byte bus: beat `j` carries bytes `j*n ..`, start of packet is 1 exactly on the first, end
of packet exactly on the last, empty is 0 except on the last, where it is the number of unused bytes. -/
def beatsOf (c : PkCfg) (n : Nat) (pkt : Bytes) (channel : Nat) : List Beat :=
  let k := beatCount n pkt.length
  (List.range k).map fun j =>
    { sop := Logic.ofBool (j == 0)
      eop := Logic.ofBool (j + 1 == k)
      data := wordBits c.highFirst n ((pkt.drop (j * n)).take n)
      empty := if c.useEmpty then some (natToBits (c.emptyW.getD 0) (if j + 1 = k then n * k - pkt.length else 0)) else none
      channel := c.channelW.map (fun w => natToBits w channel) }

/-- The bus of a packet interface with `n` data bytes: an empty signal, where one is used, that can express the number
of unused bytes, and a channel signal that can express the channels. -/
structure ByteBus (c : PkCfg) (n : Nat) : Prop where
  pos : 0 < n
  width : c.width = 8 * n
  empty : c.useEmpty = true → ∃ w, c.emptyW = some w ∧ n ≤ 2 ^ w
  channel : ∀ w, c.channelW = some w → c.maxChannel < 2 ^ w

/-- The channel argument is acceptable: in range if the bus has channels, else absent. -/
def ChannelOk (c : PkCfg) (ch : Option Int) : Prop :=
  match c.channelW, ch with
  | none, ch => ch = none
  | some _, none => True
  | some _, some x => 0 ≤ x ∧ x ≤ c.maxChannel

/-! ### Traces as the monitor's specification sees them -/

/-- What happens at a rising edge. -/
inductive PkEvent where
  | reset
  | idle
  | beat (o : PkOut)
  deriving DecidableEq, Repr

/-- The event at an edge (reset values that are not 0/1 count as no reset here; theorems exclude them). -/
def eventAt (c : PkCfg) (r : PkOut × PkIn) : PkEvent :=
  if inReset r.2.resetN r.2.reset = .ok true then .reset
  else if (pkStream c).xfer r then .beat r.1
  else .idle

/-- The beat of an event. -/
def PkEvent.beat? : PkEvent → Option PkOut
  | .beat o => some o
  | _ => none

/-- The beats taken in a trace. -/
def beatsIn (c : PkCfg) (t : List (PkOut × PkIn)) : List PkOut := t.filterMap (fun r => (eventAt c r).beat?)

/-- The beats after the last end of packet: those of the packet still open at the end of the trace. -/
def openBeats : List PkOut → List PkOut
  | [] => []
  | o :: r => if r.any (fun x => x.eop == .one) then openBeats r else if o.eop = .one then r else o :: r

/-- Number of packets that ended. -/
def ended (bs : List PkOut) : Nat := (bs.filter (fun o => o.eop == .one)).length

/-- Idle, out-of-reset edges since the last beat. -/
def idleSince (c : PkCfg) : Nat → List (PkOut × PkIn) → Nat
  | k, [] => k
  | k, r :: t => match eventAt c r with
    | .reset => idleSince c k t
    | .idle => idleSince c (k + 1) t
    | .beat _ => idleSince c 0 t

/-- The reset signals are readable. -/
def ResetReadable (i : PkIn) : Prop := ∃ b, inReset i.resetN i.reset = .ok b

/-- A beat in the middle of a packet carrying `n` bytes. -/
structure BodyBeat (c : PkCfg) (n : Nat) (b : Bytes) (ch : Option Nat) (o : PkOut) : Prop where
  eop : o.eop ≠ .one
  len : b.length = n
  data : o.data = wordBits c.highFirst n b
  channel : ∀ w, c.channelW = some w → ∃ x, ch = some x ∧ toUnsigned o.channel = .ok x

/-- The last beat of a packet, carrying `b` and `n - b.length` unused bytes (the empty symbols; a number greater than that of the symbols
counts as all of them), whose bits are arbitrary (X included). -/
structure LastBeat (c : PkCfg) (n : Nat) (b : Bytes) (ch : Option Nat) (o : PkOut) : Prop where
  eop : o.eop = .one
  len : b.length ≤ n
  data : ∃ junk : LogicArray, junk.length = 8 * (n - b.length) ∧
    o.data = if c.highFirst then joinBytes b ++ junk else junk ++ joinBytes b.reverse
  empty : if c.useEmpty then ∃ e, toUnsigned o.empty = .ok e ∧ min (e * c.bitsPerSymbol) (8 * n) = 8 * (n - b.length) else b.length = n
  channel : ∀ w, c.channelW = some w → ∃ x, ch = some x ∧ toUnsigned o.channel = .ok x

/-- A well-formed packet: its beats carry its bytes in order, start of packet is asserted on the first beat only and end of packet
on the last only; the channel is constant and in range. -/
structure PacketOn (c : PkCfg) (n : Nat) (pkt : Bytes) (ch : Option Nat) (beats : List PkOut) : Prop where
  shape : ∃ (bodies : List (Bytes × PkOut)) (lastB : Bytes) (last : PkOut),
    beats = bodies.map Prod.snd ++ [last] ∧ pkt = (bodies.map Prod.fst).flatten ++ lastB ∧
    (∀ p ∈ bodies, BodyBeat c n p.1 ch p.2) ∧ LastBeat c n lastB ch last
  sop : ∀ j o, beats[j]? = some o → (o.sop = .one ↔ j = 0)
  range : ∀ x, ch = some x → x ≤ c.maxChannel
  none : c.channelW = none → ch = none

/-- The data of a last beat without its `e` empty symbols. -/
def unmasked (c : PkCfg) (e : Nat) (o : PkOut) : LogicArray :=
  if c.highFirst then o.data.take (o.data.length - e * c.bitsPerSymbol) else o.data.drop (e * c.bitsPerSymbol)

/-- The number of empty symbols of a last beat. -/
def EmptyIs (c : PkCfg) (o : PkOut) (e : Nat) : Prop := if c.useEmpty then toUnsigned o.empty = .ok e else e = 0

/-- The data of a beat can be read: no X or Z (in a last beat: outside the empty symbols), and more than one bit. -/
structure Decodable (c : PkCfg) (o : PkOut) : Prop where
  body : o.eop ≠ .one → isResolvable o.data = true ∧ o.data.length ≠ 1
  last : o.eop = .one → ∃ e, EmptyIs c o e ∧ isResolvable (unmasked c e o) = true ∧ (unmasked c e o).length ≠ 1

/-- One of the beats is a last beat with a nonzero number of empty symbols. -/
def emptySeen (c : PkCfg) (beats : List PkOut) : Prop :=
  ∃ o ∈ beats, o.eop = .one ∧ c.useEmpty = true ∧ ∃ k, toUnsigned o.empty = .ok (k + 1)

/-- With `invalidTimeout` set, the packet in progress never waits that long. -/
def NoTimeout (c : PkCfg) (t : List (PkOut × PkIn)) : Prop :=
  c.invalidTimeout = 0 ∨
    ∀ a b, t = a ++ b → openBeats (beatsIn c a) ≠ [] → idleSince c 0 a < c.invalidTimeout

/-- What is reported for a packet. -/
def reportOf (c : PkCfg) (pkt : Bytes) (ch : Option Nat) : PkReport := ⟨pkt, if c.reportChannel then some ch else none⟩

/-- What becomes of a packet on an `n`-byte bus if the sender counts `unused` bytes in the last beat and the receiver drops as many symbols of
`k` bytes (all of that beat at most), or none if there is no empty signal. -/
def comesBack (useEmpty : Bool) (n k : Nat) (pkt : Bytes) : Bytes :=
  let onBus := n * beatCount n pkt.length
  let unused := onBus - pkt.length
  if useEmpty then pkt.take (onBus - min n (unused * k)) else pkt ++ List.replicate unused 0

end CocotbBus.Spec
