import Verif.Proof.Window
import Verif.Props.Online

/-! # C104: a reordering window on expected output that is produced while the test runs -/

namespace CocotbBus
open Spec
variable {T : Type}

/-- C104: any number of interfaces with any reorder depths (also negative ones, which mean 0), any interleaving of transactions
delivered by the monitors and additions to the expected lists, `fail_immediately` or not. The verdict is success exactly if every
interface can be explained: each transaction is paired with one of the first `reorder_depth + 1` values present at that time and not
paired yet, and nothing is left. Missing: transactions that compare equal although they are not acceptable, or the other way
round, on an interface with a positive depth (`C104_violated`). -/
theorem C104_window_partial (ops : TxnOps T) (name : Option String) (imm : Bool) (heap : Nat → List T) (ifs : List Iface)
    (hmid : (ifs.map Iface.mid).Nodup) (href : (ifs.map Iface.ref).Nodup)
    (hag : ∀ i ∈ ifs, 0 < i.depth → Agrees ops i.strict) (h : List (SbOp T)) :
    (playSb h (addAll ops (busMonitor name) ifs (World.new imm heap))).sb.result = .ok () ↔
      ∀ i ∈ ifs, Explained i.depth.toNat (Accepts ops i.strict) i.mid i.ref (heap i.ref) h := by
  have hn : (busMonitor name).name ≠ none := by simp [busMonitor]
  obtain ⟨h1, h2, h3, h4, -⟩ := addAll_wired ops name ifs [] (World.new imm heap) (by simpa using hmid)
    ⟨by simp, fun _ _ => rfl⟩ rfl
  simp only [List.nil_append] at h1 h2
  have hb := playSb_balance ops (busMonitor name) hn ifs href h _ h1
  have hexp : (playSb h (addAll ops (busMonitor name) ifs (World.new imm heap))).sb.expected = ifs.map (fun i => (i.mid, .list i.ref)) := by
    rw [hb.1]; exact h2
  rw [result_ok_iff _ ifs hexp, playSb_explained ops (busMonitor name) hn ifs hmid href hag h _ h1 h3, h4]
  exact Iff.rfl

/-- C104: a test with a reference model on the monitor of the input and a reordering window on the output. -/
theorem C104_model_partial (ops : TxnOps T) (name : Option String) (imm strict : Bool) (heap : Nat → List T) (inMon outMon ref : Nat) (hne : inMon ≠ outMon)
    (depth : Int) (hag : 0 < depth → Agrees ops strict) (f : T → T) (h : List (IoOp T)) :
    (playIo inMon outMon ref f h (refBench ops imm heap inMon outMon ref (busMonitor name) strict f depth)).sb.result = .ok () ↔
      ExplainedIo depth.toNat (Accepts ops strict) f true (heap ref) h := by
  have hr : RefLike inMon outMon ref f false (refBench ops imm heap inMon outMon ref (busMonitor name) strict f depth)
      (addAll ops (busMonitor name) [⟨outMon, ref, depth, strict⟩] (World.new imm heap)) := by
    refine ⟨rfl, ?_, ?_⟩
    · simp only [refBench, World.setMon, if_neg hne.symm]; rfl
    · simp [refBench, World.setMon, World.addInterface, busMonitor, hne, World.new, Monitor.addCallback]
  rw [playIo_refLike inMon outMon ref hne f h false _ _ hr,
    C104_window_partial ops name imm heap _ (by simp) (by simp) (by simpa using hag)]
  simp only [List.mem_singleton, forall_eq]
  exact explained_io depth.toNat (Accepts ops strict) outMon ref f h false (heap ref)

/-- C104: whatever the depth, success means that what was received is a permutation of what was expected, and that no transaction
came while the expected list was used up. -/
theorem C104_permutation (d : Nat) (acc : T → T → Prop) (hacc : ∀ a b, acc a b → a = b) (mid ref : Nat) (E : List T) (h : List (SbOp T))
    (hh : Explained d acc mid ref E h) : (receivedOf mid h).Perm (E ++ addedTo ref h) ∧ InTime E mid ref h :=
  ⟨Explained.perm hacc hh, Explained.inTime hh⟩

/-- C104: raising reorder depths never turns a successful test into a failing one. -/
theorem C104_deeper_partial (ops : TxnOps T) (name : Option String) (imm : Bool) (heap : Nat → List T) (ifs : List Iface) (deeper : Iface → Int)
    (hmid : (ifs.map Iface.mid).Nodup) (href : (ifs.map Iface.ref).Nodup)
    (hle : ∀ i ∈ ifs, i.depth ≤ deeper i) (hag : ∀ i ∈ ifs, 0 < deeper i → Agrees ops i.strict) (h : List (SbOp T))
    (hok : (playSb h (addAll ops (busMonitor name) ifs (World.new imm heap))).sb.result = .ok ()) :
    (playSb h (addAll ops (busMonitor name) (ifs.map (fun i => { i with depth := deeper i })) (World.new imm heap))).sb.result = .ok () := by
  rw [C104_window_partial ops name imm heap ifs hmid href (fun i hi hd => hag i hi (by have := hle i hi; omega))] at hok
  rw [C104_window_partial ops name imm heap _ (by simpa [Function.comp_def] using hmid) (by simpa [Function.comp_def] using href)
    (by simpa using hag)]
  intro i hi
  obtain ⟨j, hj, rfl⟩ := List.mem_map.1 hi
  exact Explained.mono (by have := hle j hj; show _ ≤ (deeper j).toNat; omega) (hok j hj)

/-- C104: if all expected values are there at the start, an explanation is a reordering as in C25. -/
theorem C104_static (d : Nat) (acc : T → T → Prop) (mid ref : Nat) (E R : List T) :
    Explained d acc mid ref E (R.map (.recv mid)) ↔ Reorders d acc E R :=
  explained_static d acc mid ref R E

/-- C104, the unrestricted property is false: two values of different types compare equal, and the search takes the one of the wrong
type although the other one is in the window. -/
theorem C104_violated :
    let ops : TxnOps (Nat × Nat) := ⟨fun a b => a.2 == b.2, fun a => a.1, fun a => toString a.2⟩
    let h : List (SbOp (Nat × Nat)) := [.extend 0 [(1, 1)], .extend 0 [(0, 1)], .recv 0 (0, 1), .recv 0 (1, 1)]
    Explained 1 (Accepts ops true) 0 0 [] h ∧
    (playSb h (addAll ops (busMonitor none) [⟨0, 0, 1, true⟩] (World.new false (fun _ => [])))).sb.result ≠ .ok () := by
  refine ⟨.add _ _ _ (.add _ _ _ (.take [(1, 1)] [] (0, 1) (0, 1) _ (by decide) (by decide) (.take [] [] (1, 1) (1, 1) _ (by decide) (by decide) .done))), ?_⟩
  decide +kernel

/-! ### Instances -/

theorem natOps_agrees : Agrees natOps true := by
  constructor <;> simp only [Accepts, natOps, if_true, true_and, beq_iff_eq]
  · exact fun a b => eq_comm
  · exact fun a b h => h.symm
  · exact fun a b c h1 h2 => h1.trans h2

/-- two interfaces with windows of two and of three values -/
def winIfs : List Iface := [⟨0, 5, 1, true⟩, ⟨1, 6, 2, true⟩]

/-- a history in which values are added in between -/
def winHist : List (SbOp Nat) := [.extend 5 [1, 2], .recv 0 2, .extend 6 [7, 8, 9], .recv 1 9, .extend 5 [3], .recv 0 3, .recv 1 7, .recv 0 1, .recv 1 8]

example : (playSb winHist (addAll natOps (busMonitor none) winIfs (World.new true (fun _ => [])))).sb.result = .ok () := by decide +kernel
example : ∀ i ∈ winIfs, Explained i.depth.toNat (Accepts natOps i.strict) i.mid i.ref [] winHist :=
  (C104_window_partial natOps none true (fun _ => []) winIfs (by decide) (by decide)
    (fun i hi _ => by
      have : i.strict = true := by revert i; decide
      rw [this]; exact natOps_agrees) winHist).1 (by decide +kernel)
-- outside of the window; in the window but not yet there
example : (playSb [.extend 5 [1, 2, 3], .recv 0 3, .recv 0 1, .recv 0 2] (addAll natOps (busMonitor none) winIfs (World.new false (fun _ => [])))).sb.result ≠ .ok () := by decide +kernel
example : (playSb [.extend 5 [1], .recv 0 2, .extend 5 [2], .recv 0 1] (addAll natOps (busMonitor none) winIfs (World.new false (fun _ => [])))).sb.result ≠ .ok () := by decide +kernel
-- the same histories with larger windows
example : (playSb [.extend 5 [1, 2, 3], .recv 0 3, .recv 0 1, .recv 0 2] (addAll natOps (busMonitor none) [⟨0, 5, 2, true⟩] (World.new false (fun _ => [])))).sb.result = .ok () := by decide +kernel
-- a reference model and a device that swaps two transactions
example : (playIo 0 1 0 (· + 1) [.input 3, .input 4, .output 5, .output 4] (refBench natOps true (fun _ => []) 0 1 0 (busMonitor none) true (· + 1) 1)).sb.result = .ok () := by decide +kernel
example : (playIo 0 1 0 (· + 1) [.input 3, .input 4, .output 5, .output 4] (refBench natOps true (fun _ => []) 0 1 0 (busMonitor none) true (· + 1) 0)).sb.result ≠ .ok () := by decide +kernel

end CocotbBus
