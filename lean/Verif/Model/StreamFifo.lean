import Verif.Model.Session
import Verif.Model.RefModel

/-!
# The streaming test

The device of tests/designs/avalon_streaming_module/avalon_streaming.sv, a queue with an Avalon-ST sink and an Avalon-ST source, and its test
tests/test_cases/test_avalon_stream/test_avalon_stream.py, which uses `AvalonST` drivers and monitors, a `BitDriver` and a `Scoreboard`.
-/

namespace CocotbBus
open Coro Spec

/-- The registers of the device (avalon_streaming.sv:14-15, 7-10). `queue` has ten entries. -/
structure FifoDev where
  queue : List LogicArray
  size : Nat
  ready : Bool
  valid : Bool
  data : LogicArray
  deriving DecidableEq, Repr

/-- After reset (avalon_streaming.sv:18-22); `started` if there has been a clock edge since (avalon_streaming.sv:24). The entries of the queue may be
anything. -/
def FifoDev.fresh (queue : List LogicArray) (started : Bool) : FifoDev := ⟨queue, 0, started, false, List.replicate 8 .x⟩

/-- One clock edge out of reset (avalon_streaming.sv:23-43): a word is put in where `size` points to, which has no effect behind the end of the queue; a word
is taken out and the others move. `size` and `queue` are assigned at once, the outputs at the end. -/
def FifoDev.step (d : FifoDev) (o : StOut) (take : Logic) : FifoDev :=
  let q := if o.valid = .one ∧ d.ready = true then d.queue.set d.size o.data else d.queue
  let n := if o.valid = .one ∧ d.ready = true then d.size + 1 else d.size
  let q' := if d.valid = true ∧ take = .one then q.tail ++ q.drop 9 else q
  let n' := if d.valid = true ∧ take = .one then n - 1 else n
  ⟨q', n', decide (d.size < 10), decide (0 < n'), q'.headD []⟩

/-- The device after some edges; `take n` is `aso_ready` at edge number `n` (avalon_streaming.sv:17-43). -/
def FifoDev.run (take : Nat → Logic) : Nat → FifoDev → List (StOut × StIn) → FifoDev
  | _, d, [] => d
  | n, d, q :: t => FifoDev.run take (n + 1) (d.step q.1 (take n)) t

/-- In this trace of the sink the signal that the driver does not drive is that of the device (avalon_streaming.sv:7). -/
def FifoDev.Drives (take : Nat → Logic) : Nat → FifoDev → List (StOut × StIn) → Prop
  | _, _, [] => True
  | n, d, q :: t => q.2.ready = Logic.ofBool d.ready ∧ FifoDev.Drives take (n + 1) (d.step q.1 (take n)) t

instance (take : Nat → Logic) : (n : Nat) → (d : FifoDev) → (t : List (StOut × StIn)) → Decidable (FifoDev.Drives take n d t)
  | _, _, [] => inferInstanceAs (Decidable True)
  | n, d, q :: t =>
    have : Decidable (FifoDev.Drives take (n + 1) (d.step q.1 (take n)) t) := instDecidableDrives take (n + 1) (d.step q.1 (take n)) t
    inferInstanceAs (Decidable (_ ∧ _))

/-- What is on the bus of the source at an edge (avalon_streaming.sv:9-11). -/
def FifoDev.source (d : FifoDev) (take : Logic) : StOut × StIn := (⟨Logic.ofBool d.valid, d.data⟩, ⟨take⟩)

/-- The two interfaces: 8 bits wide, with ready, and the default configuration (avalon_streaming.sv:5-11, test_avalon_stream.py:57-62). -/
def streamCfg : StCfg := { width := 8, hasReady := true }

/-- What the monitor reports at each edge (test_avalon_stream.py:62; monitors/avalon.py:47-69). -/
def fifoReports (mon : Nat) (take : Nat → Logic) : Nat → FifoDev → List (StOut × StIn) → List (List (SbOp Bytes))
  | _, _, [] => []
  | n, d, q :: t => (stMonitor streamCfg [d.source (take n)]).1.map (.recv mon) :: fifoReports mon take (n + 1) (d.step q.1 (take n)) t

/-- One word of the test (test_avalon_stream.py:79-82, 93-96): the byte that is sent, `sync` (true in the test), and for how many edges the test waits then (one
in the test, and five more at the end). -/
structure StreamItem where
  byte : Byte
  sync : Bool
  pause : Nat
  deriving DecidableEq, Repr

/-- What has happened: the trace of the sink, the events at the scoreboard, the device, whether the test is through, and what the monitor reports only after
the test has asked for the result. -/
structure StreamRun where
  trace : List (StOut × StIn)
  events : List (SbOp Bytes)
  dev : FifoDev
  done : Bool
  late : List (SbOp Bytes)

/-- The sending of one word (test_avalon_stream.py:82, 96). -/
def streamSend (x : StreamItem) (v : Valids) : M StIn StOut Valids := do
  let v ← stSend streamCfg (.int x.byte.toNat) x.sync v
  edges x.pause
  pure v

/-- The test (test_avalon_stream.py:85-101) from word number `k` and edge number `n` on, with `recent` what the monitor reports at the edge at which the test has
arrived. The test and the monitor wait for the same edge, and `first` says which one of them goes on first: it is about whether the expected
value (test_avalon_stream.py:80-81), or at the end the reading of the result, comes before those reports or after them. -/
def streamTest (mon ref : Nat) (take : Nat → Logic) (first : Nat → Bool) : Nat → Nat → FifoDev → List (SbOp Bytes) → List StreamItem → Valids → Sim StIn StOut → StreamRun
  | k, _, d, recent, [], _, _ => ⟨[], if first k then [] else recent, d, true, if first k then recent else []⟩
  | k, n, d, recent, x :: xs, v, s =>
    let y := streamSend x v s
    let reports := fifoReports mon take n d y.1
    let expect : SbOp Bytes := .extend ref [[x.byte]]
    let events := if first k then expect :: recent else recent ++ [expect]
    match y.2 with
    | .ok v' s' =>
      let r := streamTest mon ref take first (k + 1) (n + y.1.length) (d.run take n y.1) (reports.getLast?.getD []) xs v' s'
      ⟨y.1 ++ r.trace, events ++ reports.dropLast.flatten ++ r.events, r.dev, r.done, r.late⟩
    | _ => ⟨y.1, events ++ reports.flatten, d.run take n y.1, false, []⟩

end CocotbBus
