import Verif.Model.AxiMaster

/-!
# AXI4 masters in use

A test calls `read` and `write` of one `AXI4Master` or `AXI4LiteMaster` (drivers/amba.py:316-684) one after the other, letting any
number of clock edges pass in between. A call of `write` drives the write channels, one of `read` the read address channel; the
signals of the other channels stay as they are.
-/

namespace CocotbBus
open Coro

/-- All signals driven by the calls: AW and W, and AR. -/
abbrev AxAll := (AddrOut × WOut) × AddrOut

/-- The end of a program that drives some of the signals, seen on all signals. -/
def End.mapOut {I O P α : Type} (f : O → P) : End I O α → End I P α
  | .ok a s => .ok a ⟨s.phase, f s.out, s.prev, s.cur, s.rest⟩
  | .err e s => .err e ⟨s.phase, f s.out, s.prev, s.cur, s.rest⟩
  | .blocked s => .blocked ⟨s.phase, f s.out, s.prev, s.cur, s.rest⟩

/-- A call that drives the write channels (drivers/amba.py:316-406). -/
def onWrite {α : Type} (x : M AxIn (AddrOut × WOut) α) : M AxIn AxAll α := fun s =>
  let r := x ⟨s.phase, s.out.1, s.prev, s.cur, s.rest⟩
  (r.1.map (fun q => ((q.1, s.out.2), q.2)), r.2.mapOut (fun o => (o, s.out.2)))

/-- A call that drives the read address channel (drivers/amba.py:408-583). -/
def onRead {α : Type} (x : M AxIn AddrOut α) : M AxIn AxAll α := fun s =>
  let r := x ⟨s.phase, s.out.2, s.prev, s.cur, s.rest⟩
  (r.1.map (fun q => ((s.out.1, q.1), q.2)), r.2.mapOut (fun o => (s.out.1, o)))

/-- One step of such a test. -/
inductive AxOp where
  | write (address : Nat) (value : List Nat) (size : Option Int) (burst : AxiBurst) (byteEnable : List (Option Nat)) (addressLatency dataLatency : Nat) (sync : Bool)
  | read (address : Nat) (length : Int) (size : Option Int) (burst : AxiBurst) (sync : Bool)
  | liteWrite (address value : Nat) (byteEnable : Option Nat) (addressLatency dataLatency : Nat) (sync : Bool)
  | liteRead (address : Nat) (sync : Bool)
  | pause (edges : Nat)
  deriving DecidableEq, Repr

/-- One step: the words that `read` returned (drivers/amba.py:316-684). `return_rresp` has its default value. -/
def axStep (c : AxCfg) : AxOp → M AxIn AxAll (List LogicArray)
  | .write a v size burst be al dl sync => do
    onWrite (axiWrite c a v size burst be al dl sync)
    pure []
  | .read a length size burst sync => do
    let d ← onRead (axiRead c a length size burst false sync)
    pure (d.elim id (fun l => l.map Prod.fst))
  | .liteWrite a v be al dl sync => do
    let _ ← onWrite (liteWrite c a (.inl v) be al dl sync)
    pure []
  | .liteRead a sync => do
    let d ← onRead (liteRead c a sync)
    pure [d]
  | .pause n => do
    edges n
    pure []

/-- The outcomes of the calls so far and the state of the test, which may be in the middle of a step (drivers/amba.py:316-684). The test
catches the `AXIProtocolError` that a call raises on an error response (drivers/amba.py:396-406, 570-581) and goes on. -/
def axUse (c : AxCfg) : List AxOp → Sim AxIn AxAll → List (Except PyErr (List LogicArray)) × Res AxIn AxAll Unit
  | [], s => ([], [], .ok () s)
  | op :: ops, s =>
    match axStep c op s with
    | (t, .ok d s') =>
      let r := axUse c ops s'
      (.ok d :: r.1, t ++ r.2.1, r.2.2)
    | (t, .err (.axiProtocol n) s') =>
      let r := axUse c ops s'
      (.error (.axiProtocol n) :: r.1, t ++ r.2.1, r.2.2)
    | (t, .err e s') => ([], t, .err e s')
    | (t, .blocked s') => ([], t, .blocked s')

end CocotbBus
