import Verif.Spec.AvalonPkts

/-!
Specification of a packet monitor that is reconfigured while it runs.
-/

namespace CocotbBus.Spec

/-- Two configurations of one monitor: same signals, same symbol width (and so the same use of `empty`, which the constructor
decides), same form of report. The other options (byte order, greatest channel, timeout) may differ. -/
structure SameMonitor (c c' : PkCfg) : Prop where
  width : c'.width = c.width
  hasReady : c'.hasReady = c.hasReady
  emptyW : c'.emptyW = c.emptyW
  channelW : c'.channelW = c.channelW
  bitsPerSymbol : c'.bitsPerSymbol = c.bitsPerSymbol
  reportChannel : c'.reportChannel = c.reportChannel

/-- The beats taken in a trace, each with the configuration in force at its edge. -/
def beatsWith (t : List (PkCfg × (PkOut × PkIn))) : List (PkCfg × PkOut) :=
  t.filterMap (fun r => (eventAt r.1 r.2).beat?.map (fun o => (r.1, o)))

/-- A well-formed packet whose beats need not be laid out alike: each of them is laid out as the configuration that goes with it says. -/
structure PacketWith (n : Nat) (pkt : Bytes) (ch : Option Nat) (beats : List (PkCfg × PkOut)) : Prop where
  shape : ∃ (bodies : List (Bytes × PkCfg × PkOut)) (lastB : Bytes) (last : PkCfg × PkOut),
    beats = bodies.map Prod.snd ++ [last] ∧ pkt = (bodies.map Prod.fst).flatten ++ lastB ∧
    (∀ p ∈ bodies, BodyBeat p.2.1 n p.1 ch p.2.2) ∧ LastBeat last.1 n lastB ch last.2
  sop : ∀ j p, beats[j]? = some p → (p.2.sop = .one ↔ j = 0)
  range : ∀ p ∈ beats, ∀ x, ch = some x → x ≤ p.1.maxChannel
  none : ∀ p ∈ beats, p.1.channelW = none → ch = none

/-- No edge finds the packet in progress waiting for as long as the timeout then in force allows. -/
def NoTimeoutWith (c : PkCfg) (t : List (PkCfg × (PkOut × PkIn))) : Prop :=
  ∀ a k r b, t = a ++ (k, r) :: b → k.invalidTimeout ≠ 0 → openBeats (beatsIn c (a.map Prod.snd ++ [r])) ≠ [] →
    idleSince c 0 (a.map Prod.snd ++ [r]) < k.invalidTimeout

/-- A word of `n` bytes sent with its first byte at the high (`hf`) or low end of the bus. -/
structure WordSent (hf : Bool) (n : Nat) (b : Bytes) (o : PkOut) : Prop where
  len : b.length = n
  data : o.data = if hf then joinBytes b else joinBytes b.reverse

/-- What a monitor that takes the order `hf'` makes of the bytes sent in order `hf`. -/
def seenAs (hf hf' : Bool) (b : Bytes) : Bytes := if hf' = hf then b else b.reverse

end CocotbBus.Spec
