import Verif.Proof.AvalonST
import Verif.Proof.Triple
import Mathlib.Data.List.Forall2

/-! # Properties C17, C31, C32, C33 and C76: Avalon-ST without packets -/

namespace CocotbBus
open Spec Coro

/-! ### C17 -/

/-- C17: for every generator, every list of sendable words and every schedule of `ready`, the number of idle edges before
each word transferred is the programmed gap (plus the synchronisation edge of a `sync=True` send). -/
theorem C17_gaps (cfg : StCfg) (g : List (Nat × Nat)) (items : List ((AvVal × Bool) × BinVal))
    (hx : ∀ p ∈ items, createBinary p.1.1 cfg.width false = .ok p.2) (s : Sim StIn StOut) (hs : s.phase ≠ .ro) :
    let t := (stSendAll cfg (items.map Prod.fst) (setValidGenerator (some g)) s).1
    idleBefore cfg.hasReady 0 t =
      (((List.range items.length).zip items).map (fun q => gapAt (usable g) q.1 + syncEdges q.2.1.2)).take
        (transferred cfg.hasReady t).length := by
  obtain ⟨k, hk, h1, h2, -⟩ := stSendAll_run cfg items hx (setValidGenerator (some g)) s hs
  simp only [h1, h2, gaps_setValid, List.length_map, List.length_take, Nat.min_eq_left hk]
  rw [List.zip_map_left, List.map_map]
  rfl

/-- C17: without a generator no gap is ever inserted. -/
theorem C17_no_generator (cfg : StCfg) (items : List ((AvVal × Bool) × BinVal))
    (hx : ∀ p ∈ items, createBinary p.1.1 cfg.width false = .ok p.2) (s : Sim StIn StOut) (hs : s.phase ≠ .ro) :
    let t := (stSendAll cfg (items.map Prod.fst) (setValidGenerator none) s).1
    idleBefore cfg.hasReady 0 t = (items.map (fun p => syncEdges p.1.2)).take (transferred cfg.hasReady t).length := by
  obtain ⟨k, hk, h1, h2, -⟩ := stSendAll_run cfg items hx (setValidGenerator none) s hs
  simp only [h1, h2, gaps_setValid_none, List.length_map, List.length_take, Nat.min_eq_left hk]
  congr 1
  apply List.ext_getElem
  · simp
  · intro i h3 h4; simp

/-- the gaps for pairs (2,3), (1,4): words 0 and 1 without gap, word 2 after 3 idle edges, word 3 after 4, then none -/
example : (List.range 6).map (gapAt (usable [(2, 3), (0, 9), (1, 4)])) = [0, 0, 3, 4, 0, 0] := by decide

example :
    let t := (stSendAll ⟨8, true, true⟩ [(.int 1, true), (.int 2, false), (.int 3, false)] (setValidGenerator (some [(1, 2)]))
      ⟨.mid, ⟨.zero, []⟩, ⟨.one⟩, ⟨.one⟩, [⟨.one⟩, ⟨.one⟩, ⟨.one⟩, ⟨.x⟩, ⟨.zero⟩, ⟨.one⟩, ⟨.one⟩, ⟨.one⟩]⟩).1
    idleBefore true 0 t = [1, 2, 0] := by decide +kernel

/-! ### C31 -/

/-- C31: for every list of sendable words, every valid generator state and every schedule: the words transferred are the
sent words in order, each once, up to some point; all of them if the sends complete. A word offered stays until
it is taken. No exception is raised. -/
theorem C31_exactly_once (cfg : StCfg) (items : List ((AvVal × Bool) × BinVal))
    (hx : ∀ p ∈ items, createBinary p.1.1 cfg.width false = .ok p.2) (v : Valids) (s : Sim StIn StOut) (hs : s.phase ≠ .ro) :
    let r := stSendAll cfg (items.map Prod.fst) v s
    transferred cfg.hasReady r.1 <+: items.map (fun p => p.2.bits) ∧
    (∀ v' s', r.2 = .ok v' s' → transferred cfg.hasReady r.1 = items.map (fun p => p.2.bits) ∧
      (items ≠ [] → s'.out.valid = .zero)) ∧
    (∀ e s', r.2 ≠ .err e s') ∧
    HoldsUntilTaken cfg.hasReady (withPending r) := by
  obtain ⟨k, hk, h1, h2, h3, -, h4⟩ := stSendAll_run cfg items hx v s hs
  refine ⟨?_, ?_, ?_, h3⟩
  · rw [h1, List.map_take]; exact List.take_prefix _ _
  · intro v' s' h
    rcases h4 with ⟨h4, v2, s2, h5, h6⟩ | ⟨h4, s2, h5⟩
    · rw [h] at h5
      cases h5
      exact ⟨by rw [h1, h4, List.take_length], fun hne => h6.resolve_right hne⟩
    · rw [h] at h5; cases h5
  · intro e s' h
    rcases h4 with ⟨h4, v2, s2, h5, h6⟩ | ⟨h4, s2, h5⟩ <;> (rw [h] at h5; cases h5)

/-- C31, progress: if the sink can take a word at as many of the remaining edges as there are words and programmed idle
edges, the sends complete. -/
theorem C31_progress (cfg : StCfg) (g : List (Nat × Nat)) (items : List ((AvVal × Bool) × BinVal))
    (hx : ∀ p ∈ items, createBinary p.1.1 cfg.width false = .ok p.2) (s : Sim StIn StOut) (hs : s.phase ≠ .ro)
    (hready : items.length + (((List.range items.length).zip items).map (fun q => gapAt (usable g) q.1 + syncEdges q.2.1.2)).sum
      ≤ ((s.cur :: s.rest).dropLast.filter (fun i => CanTake cfg.hasReady i)).length) :
    ∃ v' s', (stSendAll cfg (items.map Prod.fst) (setValidGenerator (some g)) s).2 = .ok v' s' := by
  obtain ⟨k, hk, h1, -, -, h3, h4⟩ := stSendAll_run cfg items hx (setValidGenerator (some g)) s hs
  rcases h4 with ⟨-, v', s', h5, -⟩ | ⟨h4, s', h5⟩
  · exact ⟨v', s', h5⟩
  · exfalso
    obtain ⟨g1, g2⟩ := Good.stSendAll cfg (items.map Prod.fst) (setValidGenerator (some g)) s
    have g3 := g2 s' h5
    rw [h5] at g1
    simp only [End.sim, g3] at g1
    rw [g1, List.dropLast_concat] at hready
    have hc := ready_count cfg.hasReady (stSendAll cfg (items.map Prod.fst) (setValidGenerator (some g)) s).1
    rw [List.filter_map, List.length_map] at hready
    rw [h1] at hc
    rw [gaps_setValid, List.zip_map_left, List.map_map] at h3
    simp only [List.length_map, List.length_take] at hc
    simp only [Function.comp_def, Prod.map] at h3 hready
    have : min k items.length = k := by omega
    simp only [id] at h3
    omega

/-- C31: what is on the pins for a byte string (first byte least significant) and for an integer. -/
theorem C31_word_bits (width : Nat) :
    (∀ b d, createBinary (.bytes b) width false = .ok d → bitsToNat d.bits = leVal b ∧ d.bits.length = width) ∧
    (∀ n d, createBinary (.int n) width false = .ok d → bitsToNat d.bits = n ∧ d.bits.length = width) := by
  constructor
  · intro b d h
    simp only [createBinary, createBinaryBytes] at h
    split at h
    · cases h
    · simp only [Bool.false_eq_true, if_false] at h
      split at h
      · rename_i hw
        cases h
        refine ⟨?_, hw⟩
        simp only [BinVal.bits, bitsToNat_append, bitsToNat_replicate_zero, bitsToNat_joinBytes, List.reverse_reverse]
        omega
      · cases h
  · intro n d h
    simp only [createBinary, createBinaryInt] at h
    split at h
    · rename_i hw
      split at h
      · rename_i hn; cases h; subst hn; subst hw; exact ⟨rfl, rfl⟩
      · split at h
        · rename_i hn; cases h; subst hn; subst hw; exact ⟨rfl, rfl⟩
        · cases h
    · split at h
      · rename_i hn
        cases h
        exact ⟨by simp only [BinVal.bits]; rw [bitsToNat_natToBits, Nat.mod_eq_of_lt hn], by simp [BinVal.bits]⟩
      · cases h

/-- three words against a sink that is not ready, then X, then ready -/
example :
    let r := stSendAll ⟨8, true, true⟩ [(.int 1, true), (.bytes [2], false), (.int 3, true)] (setValidGenerator none)
      (⟨.mid, ⟨.zero, []⟩, ⟨.one⟩, ⟨.one⟩, [⟨.zero⟩, ⟨.x⟩, ⟨.one⟩, ⟨.one⟩, ⟨.one⟩, ⟨.one⟩, ⟨.one⟩]⟩ : Sim StIn StOut)
    transferred true r.1 = [natToBits 8 1, natToBits 8 2, natToBits 8 3] ∧ r.1.length = 7 := by decide +kernel

/-! ### C33 -/

/-- C33: on every trace whose transferred words are resolvable (and whose data bus is wider than one bit) the monitor
reports one byte string per transferred word, in order: the number of bytes covering the bus, with the value of the
word in the configured symbol order. -/
theorem C33_monitor (cfg : StCfg) (t : List (StOut × StIn))
    (hd : ∀ d ∈ transferred cfg.hasReady t, isResolvable d = true ∧ d.length ≠ 1) :
    ∃ l, stMonitor cfg t = (l, none) ∧ List.Forall₂ (fun (b : Bytes) d => b.length = (d.length + 7) / 8 ∧
      (if cfg.highFirst then beVal b else leVal b) = bitsToNat d) l (transferred cfg.hasReady t) := by
  induction t with
  | nil => exact ⟨[], rfl, .nil⟩
  | cons r t ih =>
    obtain ⟨o, i⟩ := r
    rw [show (o, i) :: t = [(o, i)] ++ t from rfl, transferred_append] at hd
    obtain ⟨l, h1, h2⟩ := ih (fun d h => hd d (by simp [h]))
    by_cases hv : Transfers cfg.hasReady (o, i)
    · have hs : stValid cfg o i = true := by
        obtain ⟨a, b⟩ := hv
        unfold stValid
        split
        · rename_i h; simp [show o.valid = .one from a, show i.ready = .one from b h]
        · simp [show o.valid = .one from a]
      have ht : transferred cfg.hasReady [(o, i)] = [o.data] := by simp [transferred, hv]
      rw [ht] at hd
      obtain ⟨hr, hl⟩ := hd o.data (by simp)
      obtain ⟨b, hb, hb1, hb2⟩ := convert_pin o.data cfg.highFirst hr hl
      refine ⟨b :: l, by simp [stMonitor, hs, hb, h1], ?_⟩
      rw [show (o, i) :: t = [(o, i)] ++ t from rfl, transferred_append, ht]
      exact .cons ⟨hb1, hb2⟩ h2
    · have hs : stValid cfg o i = false := by
        unfold stValid
        unfold Transfers at hv
        split
        · rename_i h; simp [h] at hv; simpa using hv
        · rename_i h; simp [h] at hv; simpa using hv
      have ht : transferred cfg.hasReady [(o, i)] = [] := by simp [transferred, hv]
      refine ⟨l, by simp [stMonitor, hs, h1], ?_⟩
      rw [show (o, i) :: t = [(o, i)] ++ t from rfl, transferred_append, ht]
      exact h2

/-- C33: the first transferred word with an X or Z bit ends the monitor with ValueError, after the words before it were
reported; a one-bit data bus ends it with AttributeError. -/
theorem C33_unresolvable (cfg : StCfg) (t u : List (StOut × StIn)) (o : StOut) (i : StIn)
    (hd : ∀ d ∈ transferred cfg.hasReady t, isResolvable d = true ∧ d.length ≠ 1) (hv : Transfers cfg.hasReady (o, i)) :
    (o.data.length ≠ 1 → isResolvable o.data = false → stMonitor cfg (t ++ (o, i) :: u) = ((stMonitor cfg t).1, some .valueError)) ∧
    (o.data.length = 1 → stMonitor cfg (t ++ (o, i) :: u) = ((stMonitor cfg t).1, some .attributeError)) := by
  have hs : stValid cfg o i = true := by
    obtain ⟨a, b⟩ := hv
    unfold stValid
    split
    · rename_i h; simp [show o.valid = .one from a, show i.ready = .one from b h]
    · simp [show o.valid = .one from a]
  have happ := stMonitor_append cfg ((o, i) :: u)
  obtain ⟨l, h1, -⟩ := C33_monitor cfg t hd
  rw [happ t (by rw [h1])]
  constructor
  · intro hl hx
    have : convertBinaryToBytes (pinValue o.data) cfg.highFirst = .error .valueError := by
      rw [pinValue_array o.data hl]
      simp [convertBinaryToBytes, toUnsigned, hx]
    simp [stMonitor, hs, this]
  · intro hl
    obtain ⟨b, hb⟩ := List.length_eq_one_iff.1 hl
    simp [stMonitor, hs, hb, pinValue, convertBinaryToBytes]

example : stMonitor ⟨16, true, true⟩ [(⟨.one, natToBits 16 0x1234⟩, ⟨.zero⟩), (⟨.one, natToBits 16 0x1234⟩, ⟨.one⟩),
    (⟨.x, natToBits 16 0x1234⟩, ⟨.one⟩)] = ([[0x12, 0x34]], none) := by decide +kernel

/-! ### C32 -/

/-- sending byte strings that fill the bus, and monitoring the trace -/
theorem sent_and_monitored (n : Nat) (hasReady highFirst : Bool) (items : List (Bytes × Bool))
    (hl : ∀ p ∈ items, p.1.length = n) (v : Valids) (s : Sim StIn StOut) (hs : s.phase ≠ .ro) :
    let cfg : StCfg := ⟨8 * n, hasReady, highFirst⟩
    let r := stSendAll cfg (items.map (fun p => (.bytes p.1, p.2))) v s
    ∃ k ≤ items.length, stMonitor cfg r.1 = ((items.take k).map (fun p => if highFirst then p.1.reverse else p.1), none) ∧
      (∀ v' s', r.2 = .ok v' s' → k = items.length) := by
  intro cfg r
  let its : List ((AvVal × Bool) × BinVal) := items.map (fun p => ((.bytes p.1, p.2), .array (joinBytes p.1.reverse)))
  have hx : ∀ p ∈ its, createBinary p.1.1 cfg.width false = .ok p.2 := by
    intro p hp
    obtain ⟨q, hq, rfl⟩ := List.mem_map.1 hp
    have h := hl q hq
    have := createBinaryBytes_eq q.1 n false (by omega)
    simp only [h, Nat.sub_self, List.replicate_zero, List.nil_append, Bool.false_eq_true, if_false] at this
    exact this
  have hmap : its.map Prod.fst = items.map (fun p => (.bytes p.1, p.2)) := by simp [its]
  obtain ⟨k, hk, h1, -, -, -, h4⟩ := stSendAll_run cfg its hx v s hs
  rw [hmap] at h1 h4
  refine ⟨k, by simpa [its] using hk, ?_, ?_⟩
  · have := stMonitor_bytes cfg ((items.take k).map (fun p => p.1.reverse)) r.1 (by
      rw [show transferred cfg.hasReady r.1 = _ from h1]
      simp [its, List.map_take, Function.comp_def, BinVal.bits])
    rw [this]
    congr 1
    rw [List.map_map]
    apply List.map_congr_left
    intro p _
    cases highFirst <;> simp [cfg]
  · intro v' s' h
    rcases h4 with ⟨h4, -⟩ | ⟨-, s2, h5⟩
    · simpa [its] using h4
    · rw [show r.2 = _ from h5] at h; cases h

/-- C32 is false of the code: with the default configuration (first symbol in the high order bits) every byte string
that fills the bus is reported reversed, whatever the schedule. -/
theorem C32_reversed (n : Nat) (hasReady : Bool) (items : List (Bytes × Bool)) (hl : ∀ p ∈ items, p.1.length = n)
    (v : Valids) (s : Sim StIn StOut) (hs : s.phase ≠ .ro) :
    let r := stSendAll ⟨8 * n, hasReady, true⟩ (items.map (fun p => (.bytes p.1, p.2))) v s
    ∃ k ≤ items.length, stMonitor ⟨8 * n, hasReady, true⟩ r.1 = ((items.take k).map (fun p => p.1.reverse), none) ∧
      (∀ v' s', r.2 = .ok v' s' → k = items.length) :=
  sent_and_monitored n hasReady true items hl v s hs

/-- C32 is false of the code. -/
theorem C32_violated : ∃ (cfg : StCfg) (b : Bytes) (s s' : Sim StIn StOut) (v : Valids), cfg = { width := 16, hasReady := true } ∧
    (stSend cfg (.bytes b) true (setValidGenerator none) s).2 = .ok v s' ∧
    (stMonitor cfg (stSend cfg (.bytes b) true (setValidGenerator none) s).1).1 ≠ [b] :=
  ⟨_, [1, 2], ⟨.mid, ⟨.zero, []⟩, ⟨.one⟩, ⟨.one⟩, [⟨.one⟩, ⟨.one⟩]⟩, _, _, rfl, rfl, by decide +kernel⟩

/-- C32, proved part: with `firstSymbolInHighOrderBits=False` the monitor reports what was sent. Missing: the default
configuration (`C32_violated`). -/
theorem C32_low_first_partial (n : Nat) (hasReady : Bool) (items : List (Bytes × Bool)) (hl : ∀ p ∈ items, p.1.length = n)
    (v : Valids) (s : Sim StIn StOut) (hs : s.phase ≠ .ro) :
    let r := stSendAll ⟨8 * n, hasReady, false⟩ (items.map (fun p => (.bytes p.1, p.2))) v s
    ∃ k ≤ items.length, stMonitor ⟨8 * n, hasReady, false⟩ r.1 = ((items.take k).map (fun p => p.1), none) ∧
      (∀ v' s', r.2 = .ok v' s' → k = items.length) :=
  sent_and_monitored n hasReady false items hl v s hs

/-! ### C76 -/

/-- C76 is false of the code: whatever the value that does not fit the bus, the send fails with valid left at 1, so
the sink takes a word that was never sent at every following edge. -/
theorem C76_stuck_valid (cfg : StCfg) (x : AvVal) (e : PyErr) (hx : createBinary x cfg.width false = .error e)
    (s : Sim StIn StOut) (hs : s.phase ≠ .ro) :
    ∃ s', stSend cfg x false (setValidGenerator none) s = ([], .err e s') ∧ s'.out.valid = .one ∧ s'.out.data = s.out.data := by
  refine ⟨{ s with out := { s.out with valid := .one } }, ?_, rfl, rfl⟩
  unfold stSend
  rw [bind_write _ _ _ hs]
  simp only [when, Bool.false_eq_true, if_false]
  rw [bind_pure_run, bind_silent _ _ _ _ _ (show gapM lowerValid (setValidGenerator none) _ = _ from rfl)]
  rw [bind_write _ _ _ (by exact hs), hx, bind_ofExcept_error]
  rfl

/-- the gap of the driver -/
theorem Triple.stGap {E : PyErr → Sim StIn StOut → Prop} (v : Valids) :
    Triple (fun s : Sim StIn StOut => s.phase ≠ .ro ∧ s.out.valid = .zero) (fun r => r.1.valid = .zero) (gapM lowerValid v) (fun _ s => s.phase ≠ .ro) E
      (fun _ => True) := by
  refine Triple.ite (fun _ => ?_) (fun _ => Triple.pure _ (fun s hs => hs.1))
  refine Triple.bind (S := fun _ s => s.phase ≠ .ro ∧ s.out.valid = .zero) (Triple.write _ (fun s hs => hs.1) (fun s hs => ⟨hs.1, rfl⟩)) fun _ => ?_
  refine Triple.bind (Triple.edges (Inv := fun s : Sim StIn StOut => s.phase ≠ .ro ∧ s.out.valid = .zero) (fun s hs => hs.2) (fun s _ => trivial)
    (fun s i r hs _ => ⟨by simp, hs.2⟩) _) fun _ => ?_
  exact Triple.pure _ (fun s hs => hs.1)

/-- C76 in general: with any valid generator, `sync` argument and schedule the send never returns, no word is offered at any edge while it waits for its turn, and
what it raises is the error of the conversion. This is the part that holds; missing: valid is then left at 1. -/
theorem C76_raises_partial (cfg : StCfg) (x : AvVal) (e : PyErr) (hx : createBinary x cfg.width false = .error e) (sync : Bool) (v : Valids)
    (s : Sim StIn StOut) (hs : s.phase ≠ .ro) :
    let r := stSend cfg x sync v s
    (∀ q ∈ r.1, q.1.valid = .zero) ∧
    (∀ v' s', r.2 ≠ .ok v' s') ∧
    (∀ e' s', r.2 = .err e' s' → e' = e ∧ s'.out.valid = .one) := by
  have key : Triple (fun s : Sim StIn StOut => s.phase ≠ .ro) (fun r => r.1.valid = .zero) (stSend cfg x sync v) (fun _ _ => False)
      (fun e' s' => e' = e ∧ s'.out.valid = .one) (fun _ => True) := by
    unfold stSend
    refine Triple.bind (S := fun _ s => s.phase ≠ .ro ∧ s.out.valid = .zero) (Triple.write _ (fun s hs => hs) (fun s hs => ⟨hs, rfl⟩)) fun _ => ?_
    refine Triple.bind (S := fun _ s => s.phase ≠ .ro ∧ s.out.valid = .zero) (Triple.when _ (fun _ => Triple.awaitEdge (fun s hs => hs.2)
      (fun _ _ _ => trivial) (fun s i r hs _ => ⟨by simp, hs.2⟩)) (fun _ s hs => hs)) fun _ => ?_
    refine Triple.bind (S := fun _ s => s.phase ≠ .ro) (Triple.stGap v) fun _ => ?_
    refine Triple.bind (S := fun _ s => s.out.valid = .one) (Triple.write _ (fun s hs => hs) (fun s hs => rfl)) fun _ => ?_
    refine Triple.bind (S := fun _ _ => False) ?_ fun _ => ⟨fun s hs => hs.elim, fun s hs => hs.elim, fun s hs => hs.elim, fun s hs => hs.elim⟩
    rw [hx]
    exact Triple.raise _ (fun s hs => ⟨rfl, hs⟩)
  exact ⟨key.records s hs, fun v' s' h => key.ok s hs v' s' h, key.err s hs⟩

-- with a generator that makes a gap of two cycles
example : let r := stSend ⟨8, true, true⟩ (.int 256) true ⟨.count 0, 2, none⟩ ⟨.mid, ⟨.x, []⟩, ⟨.one⟩, ⟨.one⟩, [⟨.one⟩, ⟨.one⟩, ⟨.one⟩, ⟨.one⟩]⟩
    r.1.length = 3 ∧ (match r.2 with | .err .overflowError s => s.out.valid == .one | _ => false) = true := by decide +kernel

/-- C76 is false of the code: 256 on an 8-bit bus. -/
theorem C76_violated : ∃ (cfg : StCfg) (x : AvVal) (s s' : Sim StIn StOut) (e : PyErr),
    stSend cfg x false (setValidGenerator none) s = ([], .err e s') ∧ s.out.valid = .zero ∧ s'.out.valid = .one := by
  obtain ⟨s', h, h1, -⟩ := C76_stuck_valid ⟨8, true, true⟩ (.int 256) .overflowError rfl
    ⟨.mid, ⟨.zero, []⟩, ⟨.one⟩, ⟨.one⟩, []⟩ (by decide)
  exact ⟨_, _, _, s', _, h, rfl, h1⟩

end CocotbBus
