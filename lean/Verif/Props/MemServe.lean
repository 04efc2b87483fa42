import Verif.Proof.MemServe
import Verif.Props.MemBurst

/-! # Property C81 over whole executions: sequences of read bursts of `AvalonMemory` -/

namespace CocotbBus
open Spec Coro

/-- C81, what the code does with every schedule of read bursts: the pins in all cycles, and nothing is raised. While a burst is being returned
requests are not looked at; the first request after its last word starts the next burst. -/
theorem C81_exact (c : MemCfg) (hc : BurstMem c) (rand : Nat → Nat) (s : Sim MemIn MemOut) (hresp : s.out.responses = [])
    (hin : ∀ i ∈ s.rest, i.write ≠ .one ∧ (i.read = .one → BurstAsked c s.out.mem i)) :
    memShown (memRespond c rand s) = memPins s.out :: readsServed c s.out.mem [] (memPins s.out) s.rest ∧
    ∃ s', (memRespond c rand s).2 = .blocked s' :=
  memRespond_served hc rand s.out.mem _ s (Nat.le_refl _) hresp rfl hin

theorem wordsShown_append (a b : List (LogicArray × Logic × Logic)) : wordsShown (a ++ b) = wordsShown a ++ wordsShown b := by simp [wordsShown]

theorem wordsShown_burst (c : MemCfg) (mem : Nat → Option Nat) (rd : LogicArray) (i : MemIn) :
    wordsShown (burstReadPins c mem rd (bitsToNat i.address) (bitsToNat i.burstcount)) = wordsAsked c mem i := by
  simp [wordsShown, burstReadPins, wordsAsked, List.filter_append, List.filter_map, Function.comp_def, List.filter_eq_self.mpr]

theorem wordsShown_idle (c : MemCfg) (mem : Nat → Option Nat) : ∀ (idle l : List MemIn) (last : LogicArray × Logic × Logic), (∀ i ∈ idle, i.read ≠ .one) →
    ∃ last', wordsShown (readsServed c mem [] last (idle ++ l)) = wordsShown (readsServed c mem [] last' l) := by
  intro idle
  induction idle with
  | nil => intro l last _; exact ⟨last, rfl⟩
  | cons i idle ih =>
    intro l last h
    rw [List.cons_append, readsServed, if_neg (h i (by simp))]
    obtain ⟨last', h'⟩ := ih l (last.1, .zero, last.2.2) (fun j hj => h j (by simp [hj]))
    exact ⟨last', by rw [← h']; simp [wordsShown]⟩

theorem wordsShown_blocks (c : MemCfg) (mem : Nat → Option Nat) : ∀ (blocks : List (MemIn × List MemIn)) (last : LogicArray × Logic × Logic),
    (∀ b ∈ blocks, b.1.read = .one ∧ burstCycles c b.1 ≤ b.2.length + 1 ∧ ∀ i ∈ (b.1 :: b.2).drop (burstCycles c b.1), i.read ≠ .one) →
    wordsShown (readsServed c mem [] last (blocks.flatMap (fun b => b.1 :: b.2))) = blocks.flatMap (fun b => wordsAsked c mem b.1) := by
  intro blocks
  induction blocks with
  | nil => intro last _; simp [readsServed, wordsShown]
  | cons b blocks ih =>
    intro last h
    obtain ⟨h1, h2, h3⟩ := h b (by simp)
    have hps := readsServed_read c mem last b.1 (b.2 ++ blocks.flatMap (fun b => b.1 :: b.2)) h1
    have hl : (burstReadPins c mem last.1 (bitsToNat b.1.address) (bitsToNat b.1.burstcount)).length = burstCycles c b.1 := burstReadPins_length _ _ _ _ _
    simp only at hps
    rw [List.flatMap_cons, List.flatMap_cons, List.cons_append, hps, wordsShown_append, hl, ← List.cons_append,
      List.drop_append_of_le_length (by simp; exact h2), List.take_of_length_le (by rw [hl]; simp; omega), wordsShown_burst]
    obtain ⟨last', h'⟩ := wordsShown_idle c mem _ (blocks.flatMap (fun b => b.1 :: b.2)) _ h3
    rw [h', ih last' (fun b' hb' => h b' (by simp [hb']))]

/-- C81, the part that holds: for a master that gives each request (the first input of a block) the cycles its burst takes before it makes the
next one, every request is answered, in order and with exactly its words, and no other word is shown. In the cycles of a burst the master
may leave the request on the bus. -/
theorem C81_spaced_partial (c : MemCfg) (hc : BurstMem c) (rand : Nat → Nat) (s : Sim MemIn MemOut) (hresp : s.out.responses = [])
    (idle : List MemIn) (blocks : List (MemIn × List MemIn)) (hrest : s.rest = idle ++ blocks.flatMap (fun b => b.1 :: b.2))
    (hidle : ∀ i ∈ idle, i.read ≠ .one)
    (hblocks : ∀ b ∈ blocks, b.1.read = .one ∧ burstCycles c b.1 ≤ b.2.length + 1 ∧ ∀ i ∈ (b.1 :: b.2).drop (burstCycles c b.1), i.read ≠ .one)
    (hin : ∀ i ∈ s.rest, i.write ≠ .one ∧ (i.read = .one → BurstAsked c s.out.mem i)) :
    wordsShown (memShown (memRespond c rand s)).tail = blocks.flatMap (fun b => wordsAsked c s.out.mem b.1) := by
  rw [(C81_exact c hc rand s hresp hin).1, List.tail_cons, hrest]
  obtain ⟨last', h'⟩ := wordsShown_idle c s.out.mem idle (blocks.flatMap (fun b => b.1 :: b.2)) (memPins s.out) hidle
  rw [h', wordsShown_blocks c s.out.mem blocks last' hblocks]

/-! The requests of `C81_violated`: the third is not looked at. Then two bursts with enough time between them. -/

theorem exRead_asked (a : Nat) (h : a = 0 ∨ a = 2) : BurstAsked exBurstCfg exBurstMem (exRead a) := by
  rcases h with rfl | rfl
  all_goals
    refine ⟨by decide, by decide, by decide, ?_⟩
    intro k hk
    have h1 : k = 0 := by
      have : bitsToNat (natToBits 4 1) = 1 := by decide
      change k < bitsToNat (natToBits 4 1) at hk
      omega
    subst h1
    refine Or.inr fun j hj => ?_
    have hj : j < 2 := hj
    have : j = 0 ∨ j = 1 := by omega
    rcases this with rfl | rfl <;> exact ⟨_, rfl, by decide⟩

def exServe (l : List MemIn) : Sim MemIn MemOut := ⟨.mid, ⟨[], .zero, .zero, exBurstMem, [], 0⟩, {}, {}, l⟩

example : readsServed exBurstCfg exBurstMem [] ([], .zero, .zero) [exRead 0, exRead 0, exRead 2, {}, {}, {}, {}] =
    [([], .zero, .one), ([], .zero, .one), ([], .zero, .zero), ([], .zero, .zero), (natToBits 16 0x1110, .one, .zero),
      (natToBits 16 0x1110, .zero, .zero), (natToBits 16 0x1110, .zero, .zero)] := by decide +kernel

example : (∀ i ∈ (exServe [exRead 0, exRead 0, exRead 2, {}, {}, {}, {}]).rest,
    i.write ≠ .one ∧ (i.read = .one → BurstAsked exBurstCfg exBurstMem i)) := by
  intro i hi
  simp only [exServe, List.mem_cons, List.not_mem_nil, or_false] at hi
  rcases hi with rfl | rfl | rfl | rfl | rfl | rfl | rfl <;>
    first
    | exact ⟨by decide, fun _ => exRead_asked _ (Or.inl rfl)⟩
    | exact ⟨by decide, fun _ => exRead_asked _ (Or.inr rfl)⟩
    | exact ⟨by decide, fun h => absurd h (by decide)⟩

def exServeBlocks : List (MemIn × List MemIn) := [(exRead 0, [exRead 0, {}, {}, {}, {}]), (exRead 2, [exRead 2, {}, {}, {}])]
example : wordsShown (memShown (memRespond exBurstCfg (fun _ => 1) (exServe ([({} : MemIn)] ++ exServeBlocks.flatMap (fun b => b.1 :: b.2))))).tail =
    [natToBits 16 0x1110, natToBits 16 0x1312] := by
  rw [C81_spaced_partial exBurstCfg ⟨rfl, by decide, rfl, rfl, rfl, ⟨rfl, rfl⟩, ⟨rfl, rfl⟩⟩ (fun _ => 1) (exServe _) rfl [{}] exServeBlocks rfl (by decide) (by decide)]
  · decide +kernel
  · intro i hi
    simp only [exServe, exServeBlocks, List.flatMap_cons, List.flatMap_nil, List.cons_append, List.nil_append, List.append_nil, List.mem_cons, List.not_mem_nil, or_false] at hi
    rcases hi with rfl | rfl | rfl | rfl | rfl | rfl | rfl | rfl | rfl | rfl | rfl | rfl <;>
      first
      | exact ⟨by decide, fun _ => exRead_asked _ (Or.inl rfl)⟩
      | exact ⟨by decide, fun _ => exRead_asked _ (Or.inr rfl)⟩
      | exact ⟨by decide, fun h => absurd h (by decide)⟩

end CocotbBus
