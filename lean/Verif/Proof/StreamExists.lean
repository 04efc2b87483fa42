import Verif.Proof.CausalAx
import Verif.Proof.StreamFifo

/-! # The streaming test and its device: there is a simulation of every length in which the device drives the inputs -/

namespace CocotbBus
open Spec Coro

theorem Causal.gapM {I O : Type} (f : O → O) (v : Valids) : Causal (gapM f v : M I O Valids) :=
  Causal.ite (Causal.bind (Causal.write f) (fun _ => Causal.bind (Causal.edges _) (fun _ => Causal.pure _))) (Causal.pure _)

theorem Causal.stSend (cfg : StCfg) (x : AvVal) (sync : Bool) (v : Valids) : Causal (stSend cfg x sync v) :=
  Causal.bind (Causal.write _) fun _ => Causal.bind (Causal.when _ Causal.awaitEdge) fun _ => Causal.bind (Causal.gapM _ _) fun _ =>
  Causal.bind (Causal.write _) fun _ => Causal.bind (Causal.ofExcept _) fun _ => Causal.bind (Causal.write _) fun _ =>
  Causal.bind (Causal.when _ (Causal.waitRO _)) fun _ => Causal.bind Causal.awaitEdge fun _ => Causal.bind (Causal.write _) fun _ => Causal.pure _

/-- the words of the test in succession -/
def streamSends : List StreamItem → Valids → M StIn StOut Valids
  | [], v => pure v
  | x :: r, v => do
    let v ← streamSend x v
    streamSends r v

theorem Causal.streamSends (l : List StreamItem) : ∀ v, Causal (streamSends l v) := by
  induction l with
  | nil => exact fun v => Causal.pure v
  | cons x l ih => exact fun v => Causal.bind (Causal.bind (Causal.stSend _ _ _ _) fun _ => Causal.bind (Causal.edges _) fun _ => Causal.pure _) (fun v => ih v)

theorem Good.streamSends (l : List StreamItem) : ∀ v, Good (streamSends l v) := by
  induction l with
  | nil => exact fun v => Good.pure v
  | cons x l ih => exact fun v => Good.bind (Good.bind (Good.stSend _ _ _ _) fun _ => Good.bind (Good.edges _) fun _ => Good.pure _) (fun v => ih v)

theorem streamTest_trace (mon ref : Nat) (take : Nat → Logic) (first : Nat → Bool) (l : List StreamItem) : ∀ (k n : Nat) (d : FifoDev) (recent : List (SbOp Bytes)) (v : Valids)
    (s : Sim StIn StOut), (streamTest mon ref take first k n d recent l v s).trace = (streamSends l v s).1 := by
  induction l with
  | nil => intros; rfl
  | cons x l ih =>
    intro k n d recent v s
    rw [streamTest]
    show _ = (Res.andThen (streamSend x v s) (fun v => streamSends l v)).1
    cases hy : streamSend x v s with
    | mk t e =>
      cases e with
      | ok v' s' => simp only [andThen_ok, ih]
      | err a s' => rfl
      | blocked s' => rfl

theorem drives_of (take : Nat → Logic) (t : List (StOut × StIn)) : ∀ (n : Nat) (d : FifoDev),
    DrivenBy (fun (p : Nat × FifoDev) q => (p.1 + 1, p.2.step q.1 (take p.1))) (fun p => ⟨Logic.ofBool p.2.ready⟩) (n, d) t → FifoDev.Drives take n d t := by
  induction t with
  | nil => intros; trivial
  | cons q t ih => exact fun n d h => ⟨by rw [h.1], ih _ _ h.2⟩

theorem streamTest_exists (mon ref : Nat) (take : Nat → Logic) (first : Nat → Bool) (d : FifoDev) (l : List StreamItem) (v : Valids) (ph : Phase) (o : StOut) (N : Nat) :
    ∃ s : Sim StIn StOut, s.phase = ph ∧ s.out = o ∧ s.rest.length = N ∧ FifoDev.Drives take 0 d (streamTest mon ref take first 0 0 d [] l v s).trace := by
  obtain ⟨s, h1, h2, h3, h4⟩ := CausalW.closed (Causal.streamSends l v).weak (Good.streamSends l v)
    (fun (p : Nat × FifoDev) q => (p.1 + 1, p.2.step q.1 (take p.1))) (fun p => (⟨Logic.ofBool p.2.ready⟩ : StIn)) (0, d) ph o N
  rw [wholeRun, drivenBy_append] at h4
  exact ⟨s, h1, h2, h3, by rw [streamTest_trace]; exact drives_of take _ _ _ h4.1⟩

end CocotbBus
