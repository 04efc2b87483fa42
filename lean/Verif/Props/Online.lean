import Verif.Proof.Online

/-! # C101: expected output that is produced while the test runs -/

namespace CocotbBus
open Spec
variable {T : Type}

/-- C101: any number of in-order interfaces, any interleaving of transactions delivered by the monitors and additions to the expected
lists. The verdict is success exactly if for each interface every transaction came when its expected value was already in the list,
and the transactions and the expected values agree one by one. -/
theorem C101_online_partial (ops : TxnOps T) (name : Option String) (imm : Bool) (heap : Nat → List T) (ifs : List Iface)
    (hmid : (ifs.map Iface.mid).Nodup) (href : (ifs.map Iface.ref).Nodup) (hd : ∀ i ∈ ifs, i.depth = 0) (h : List (SbOp T)) :
    (playSb h (addAll ops (busMonitor name) ifs (World.new imm heap))).sb.result = .ok () ↔
      ∀ i ∈ ifs, InTime (heap i.ref) i.mid i.ref h ∧ AllAccepted ops i.strict (receivedOf i.mid h) (heap i.ref ++ addedTo i.ref h) := by
  have hn : (busMonitor name).name ≠ none := by simp [busMonitor]
  obtain ⟨h1, h2, h3, h4, _⟩ := addAll_wired ops name ifs [] (World.new imm heap) (by simpa using hmid)
    ⟨fun i hi => (by cases hi), fun _ _ => rfl⟩ rfl
  simp only [List.nil_append] at h1 h2
  have hb := playSb_balance ops (busMonitor name) hn ifs href h _ h1
  have hexp : (playSb h (addAll ops (busMonitor name) ifs (World.new imm heap))).sb.expected = ifs.map (fun i => (i.mid, .list i.ref)) := by
    rw [hb.1]; exact h2
  rw [result_ok_iff _ ifs hexp, playSb_tracks ops (busMonitor name) hn ifs hmid href hd h _ h1 h3, h4]
  exact forall_congr' fun i => forall_congr' fun _ => tracks_iff ops i h (heap i.ref)

/-- C101: a test with a reference model on the monitor of the input. The verdict is success exactly if every output came after the
input it belongs to was seen, and the outputs are what the model computed from the inputs, in order. -/
theorem C101_model_partial (ops : TxnOps T) (name : Option String) (imm strict : Bool) (heap : Nat → List T) (inMon outMon ref : Nat) (hne : inMon ≠ outMon)
    (f : T → T) (h : List (IoOp T)) :
    (playIo inMon outMon ref f h (refBench ops imm heap inMon outMon ref (busMonitor name) strict f)).sb.result = .ok () ↔
      (∀ p t q, h = p ++ .output t :: q → (outputsOf p).length < (heap ref).length + (inputsOf p).length) ∧
      AllAccepted ops strict (outputsOf h) (heap ref ++ (inputsOf h).map f) := by
  have hr : RefLike inMon outMon ref f false (refBench ops imm heap inMon outMon ref (busMonitor name) strict f)
      (addAll ops (busMonitor name) [⟨outMon, ref, 0, strict⟩] (World.new imm heap)) := by
    refine ⟨rfl, ?_, ?_⟩
    · simp only [refBench, World.setMon, if_neg hne.symm]; rfl
    · simp [refBench, World.setMon, World.addInterface, busMonitor, hne, World.new, Monitor.addCallback]
  rw [playIo_refLike inMon outMon ref hne f h false _ _ hr,
    C101_online_partial ops name imm heap _ (by simp) (by simp) (by simp)]
  simp only [List.mem_singleton, forall_eq, receivedOf_io, addedTo_io, inTime_io]

/-- C101: the flip-flop test passes exactly if the first output is the initial value and every other output is the input of the clock
edge before, whichever of the two monitors comes first at each edge. -/
theorem C101_dff (ops : TxnOps T) (name : Option String) (imm strict : Bool) (inMon outMon ref : Nat) (hne : inMon ≠ outMon) (init : T)
    (es : List (Bool × T × T)) (last : Bool × T × T) :
    (playIo inMon outMon ref id (dffTest es last) (refBench ops imm (fun _ => [init]) inMon outMon ref (busMonitor name) strict id)).sb.result = .ok () ↔
      AllAccepted ops strict ((es ++ [last]).map (fun e => e.2.2)) (init :: es.map (fun e => e.2.1)) := by
  rw [C101_model_partial ops name imm strict _ inMon outMon ref hne, dff_outputs, dff_inputs]
  simp only [List.map_id_fun, id_eq, List.singleton_append]
  exact ⟨fun h => h.2, fun h => ⟨dff_credit last es, h⟩⟩

/-- C101, the unrestricted property is false: all outputs can be what the model computes, in order, and the verdict is failure, because
an output of the device was delivered before the monitor of the input delivered the input. -/
theorem C101_violated (ops : TxnOps Nat) (name : Option String) (imm strict : Bool) (hacc : Accepts ops strict 1 1) :
    let h : List (IoOp Nat) := [.output 1, .input 1]
    AllAccepted ops strict (outputsOf h) ((inputsOf h).map id) ∧
    (playIo 0 1 0 id h (refBench ops imm (fun _ => []) 0 1 0 (busMonitor name) strict id)).sb.result ≠ .ok () := by
  intro h
  refine ⟨⟨rfl, fun k h1 h2 => ?_⟩, ?_⟩
  · match k, h1 with
    | 0, _ => exact hacc
  · rw [ne_eq, C101_model_partial ops name imm strict _ 0 1 0 (by decide)]
    intro hh
    have := hh.1 [] 1 [.input 1] rfl
    exact absurd this (by decide)

/-! ### Instances -/

/-- transactions that are numbers, of one type -/
def natOps : TxnOps Nat := ⟨fun a b => a == b, fun _ => 0, toString⟩

/-- two interfaces with empty expected lists -/
def twoIfs : World Nat := addAll natOps (busMonitor none) [⟨0, 5, 0, true⟩, ⟨1, 6, 0, true⟩] (World.new false (fun _ => []))

-- expected values are added in between: success
example : (playSb [.extend 5 [1, 2], .recv 0 1, .extend 6 [7], .recv 1 7, .recv 0 2] twoIfs).sb.result = .ok () := by decide +kernel
-- a wrong value, a missing one, one too early: failure
example : (playSb [.extend 5 [1, 2], .recv 0 1, .recv 0 3] twoIfs).sb.result ≠ .ok () := by decide +kernel
example : (playSb [.extend 5 [1, 2], .recv 0 1] twoIfs).sb.result ≠ .ok () := by decide +kernel
example : (playSb [.extend 6 [7], .recv 0 1, .extend 5 [1], .recv 1 7] twoIfs).sb.result ≠ .ok () := by decide +kernel
-- a model that adds one; a flip-flop; a flip-flop that is not stopped in time
example : (playIo 0 1 0 (· + 1) [.input 3, .input 4, .output 4, .output 5] (refBench natOps true (fun _ => []) 0 1 0 (busMonitor none) true (· + 1))).sb.result = .ok () := by decide +kernel
example : (playIo 0 1 0 id (dffTest [(true, 1, 0), (false, 0, 1), (true, 1, 0)] (false, 9, 1)) (refBench natOps true (fun _ => [0]) 0 1 0 (busMonitor none) true id)).sb.result = .ok () := by
  decide +kernel
example : (playIo 0 1 0 id [.input 1, .output 0] (refBench natOps true (fun _ => [0]) 0 1 0 (busMonitor none) true id)).sb.result ≠ .ok () := by decide +kernel
example : Accepts natOps true 1 1 := by decide +kernel

end CocotbBus
