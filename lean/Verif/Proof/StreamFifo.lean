import Verif.Spec.StreamFifo
import Verif.Proof.AvalonST
import Verif.Proof.Session
import Verif.Proof.Online

/-! # The streaming test -/

namespace CocotbBus
open Spec Coro

/-- the words in the device -/
def FifoDev.words (d : FifoDev) : List LogicArray := d.queue.take d.size

/-- the device works; `hot`: it took a word at the edge before -/
structure FifoDev.Ok (hot : Bool) (d : FifoDev) : Prop where
  len : d.queue.length = 10
  size : d.size ≤ 10
  valid : d.valid = decide (0 < d.size)
  data : 0 < d.size → d.data = d.queue.headD []
  room : d.ready = true → d.size < 10 ∨ hot = true

/-- the word the source hands over at an edge -/
def FifoDev.out (d : FifoDev) (take : Logic) : List LogicArray := if d.valid = true ∧ take = .one then [d.data] else []

theorem words_length {hot : Bool} {d : FifoDev} (h : d.Ok hot) : d.words.length = d.size := by
  have := h.len
  have := h.size
  simp only [FifoDev.words, List.length_take]; omega

theorem fifo_step (d : FifoDev) (hot : Bool) (h : d.Ok hot) (o : StOut) (take : Logic) (ha : o.valid = .one → d.ready = true → hot = false) :
    (d.step o take).Ok (decide (o.valid = .one ∧ d.ready = true)) ∧
      d.out take ++ (d.step o take).words = d.words ++ (if o.valid = .one ∧ d.ready = true then [o.data] else []) := by
  obtain ⟨hl, hs, hv, hd, hr⟩ := h
  obtain ⟨queue, size, ready, valid, data⟩ := d
  simp only at hl hs hv hd hr ha
  match queue, hl with
  | [a0, a1, a2, a3, a4, a5, a6, a7, a8, a9], _ =>
    by_cases hacc : o.valid = .one ∧ ready = true
    · have hlt : size < 10 := by
        rcases hr hacc.2 with h | h
        · exact h
        · rw [ha hacc.1 hacc.2] at h; cases h
      by_cases hout : valid = true ∧ take = .one
      · have hpos : 0 < size := by rw [hout.1] at hv; simpa using hv.symm
        have hd' := hd hpos
        simp only [List.headD_cons] at hd'
        subst hd'
        refine ⟨⟨?_, ?_, ?_, ?_, ?_⟩, ?_⟩
        · simp [FifoDev.step, hacc, hout]
        · simp [FifoDev.step, hacc, hout]; omega
        · simp [FifoDev.step, hacc, hout]
        · intro _; simp [FifoDev.step, hacc, hout]
        · intro _; right; simp [hacc]
        · match size, hpos, hlt with
          | 1, _, _ => simp [FifoDev.step, FifoDev.words, FifoDev.out, hacc, hout, List.set]
          | 2, _, _ => simp [FifoDev.step, FifoDev.words, FifoDev.out, hacc, hout, List.set]
          | 3, _, _ => simp [FifoDev.step, FifoDev.words, FifoDev.out, hacc, hout, List.set]
          | 4, _, _ => simp [FifoDev.step, FifoDev.words, FifoDev.out, hacc, hout, List.set]
          | 5, _, _ => simp [FifoDev.step, FifoDev.words, FifoDev.out, hacc, hout, List.set]
          | 6, _, _ => simp [FifoDev.step, FifoDev.words, FifoDev.out, hacc, hout, List.set]
          | 7, _, _ => simp [FifoDev.step, FifoDev.words, FifoDev.out, hacc, hout, List.set]
          | 8, _, _ => simp [FifoDev.step, FifoDev.words, FifoDev.out, hacc, hout, List.set]
          | 9, _, _ => simp [FifoDev.step, FifoDev.words, FifoDev.out, hacc, hout, List.set]
      · refine ⟨⟨?_, ?_, ?_, ?_, ?_⟩, ?_⟩
        · simp [FifoDev.step, hacc, hout]
        · simp [FifoDev.step, hacc, hout]; omega
        · simp [FifoDev.step, hacc, hout]
        · intro _; simp [FifoDev.step, hacc, hout]
        · intro _; right; simp [hacc]
        · match size, hlt with
          | 0, _ => simp [FifoDev.step, FifoDev.words, FifoDev.out, hacc, hout, List.set]
          | 1, _ => simp [FifoDev.step, FifoDev.words, FifoDev.out, hacc, hout, List.set]
          | 2, _ => simp [FifoDev.step, FifoDev.words, FifoDev.out, hacc, hout, List.set]
          | 3, _ => simp [FifoDev.step, FifoDev.words, FifoDev.out, hacc, hout, List.set]
          | 4, _ => simp [FifoDev.step, FifoDev.words, FifoDev.out, hacc, hout, List.set]
          | 5, _ => simp [FifoDev.step, FifoDev.words, FifoDev.out, hacc, hout, List.set]
          | 6, _ => simp [FifoDev.step, FifoDev.words, FifoDev.out, hacc, hout, List.set]
          | 7, _ => simp [FifoDev.step, FifoDev.words, FifoDev.out, hacc, hout, List.set]
          | 8, _ => simp [FifoDev.step, FifoDev.words, FifoDev.out, hacc, hout, List.set]
          | 9, _ => simp [FifoDev.step, FifoDev.words, FifoDev.out, hacc, hout, List.set]
    · by_cases hout : valid = true ∧ take = .one
      · have hpos : 0 < size := by rw [hout.1] at hv; simpa using hv.symm
        have hd' := hd hpos
        simp only [List.headD_cons] at hd'
        subst hd'
        refine ⟨⟨?_, ?_, ?_, ?_, ?_⟩, ?_⟩
        · simp [FifoDev.step, hacc, hout]
        · simp [FifoDev.step, hacc, hout]; omega
        · simp [FifoDev.step, hacc, hout]
        · intro _; simp [FifoDev.step, hacc, hout]
        · intro h
          left
          simp only [FifoDev.step, decide_eq_true_eq] at h
          simp [FifoDev.step, hacc, hout]
          omega
        · obtain ⟨m, rfl⟩ : ∃ m, size = m + 1 := ⟨size - 1, by omega⟩
          have : m ≤ 9 := by omega
          simp [FifoDev.step, FifoDev.words, FifoDev.out, hacc, hout]
          have e : ([a1, a2, a3, a4, a5, a6, a7, a8, a9, a9] : List LogicArray) = [a1, a2, a3, a4, a5, a6, a7, a8, a9] ++ [a9] := rfl
          rw [e, List.take_append_of_le_length (by simpa using this)]
      · refine ⟨⟨?_, ?_, ?_, ?_, ?_⟩, ?_⟩
        · simp [FifoDev.step, hacc, hout]
        · simp [FifoDev.step, hacc, hout]; omega
        · simp [FifoDev.step, hacc, hout]
        · intro _; simp [FifoDev.step, hacc, hout]
        · intro h
          left
          simp only [FifoDev.step, decide_eq_true_eq] at h
          simp [FifoDev.step, hacc, hout]
          omega
        · simp [FifoDev.step, FifoDev.words, FifoDev.out, hacc, hout]

/-- no word is taken right after another one -/
def Apart : Bool → List (StOut × StIn) → Prop
  | _, [] => True
  | hot, q :: t => (Transfers true q → hot = false) ∧ Apart (decide (Transfers true q)) t

/-- whether a word was taken at the last edge -/
def hotEnd : Bool → List (StOut × StIn) → Bool
  | hot, [] => hot
  | _, q :: t => hotEnd (decide (Transfers true q)) t

theorem apart_append (a b : List (StOut × StIn)) : ∀ hot, Apart hot (a ++ b) ↔ Apart hot a ∧ Apart (hotEnd hot a) b := by
  induction a with
  | nil => intro hot; simp [Apart, hotEnd]
  | cons q t ih => intro hot; simp [Apart, hotEnd, ih, and_assoc]

theorem hotEnd_append (a b : List (StOut × StIn)) : ∀ hot, hotEnd hot (a ++ b) = hotEnd (hotEnd hot a) b := by
  induction a with
  | nil => intro hot; rfl
  | cons q t ih => intro hot; simp [hotEnd, ih]

theorem fifo_drives_append (take : Nat → Logic) (a b : List (StOut × StIn)) : ∀ n d,
    FifoDev.Drives take n d (a ++ b) ↔ FifoDev.Drives take n d a ∧ FifoDev.Drives take (n + a.length) (d.run take n a) b := by
  induction a with
  | nil => intro n d; simp [FifoDev.Drives, FifoDev.run]
  | cons q t ih =>
    intro n d
    simp only [List.cons_append, FifoDev.Drives, FifoDev.run, ih, and_assoc, List.length_cons]
    rw [show n + 1 + t.length = n + (t.length + 1) by omega]

theorem fifo_run_append (take : Nat → Logic) (a b : List (StOut × StIn)) : ∀ n d,
    FifoDev.run take n d (a ++ b) = FifoDev.run take (n + a.length) (d.run take n a) b := by
  induction a with
  | nil => intro n d; rfl
  | cons q t ih =>
    intro n d
    simp only [List.cons_append, FifoDev.run, ih, List.length_cons]
    rw [show n + 1 + t.length = n + (t.length + 1) by omega]

/-- the words handed over at each edge -/
def fifoOuts (take : Nat → Logic) : Nat → FifoDev → List (StOut × StIn) → List (List LogicArray)
  | _, _, [] => []
  | n, d, q :: t => d.out (take n) :: fifoOuts take (n + 1) (d.step q.1 (take n)) t

theorem fifo_run (take : Nat → Logic) (t : List (StOut × StIn)) : ∀ n d hot, d.Ok hot → Apart hot t → FifoDev.Drives take n d t →
    (d.run take n t).Ok (hotEnd hot t) ∧ (fifoOuts take n d t).flatten ++ (d.run take n t).words = d.words ++ transferred true t := by
  induction t with
  | nil => intro n d hot h _ _; exact ⟨h, by simp [fifoOuts, FifoDev.run, transferred]⟩
  | cons q t ih =>
    intro n d hot h ha hd
    have hx : Transfers true q ↔ q.1.valid = .one ∧ d.ready = true := by
      unfold Transfers
      rw [hd.1]
      cases d.ready <;> simp [Logic.ofBool]
    obtain ⟨h1, h2⟩ := fifo_step d hot h q.1 (take n) (fun a b => ha.1 (hx.2 ⟨a, b⟩))
    have e : decide (q.1.valid = .one ∧ d.ready = true) = decide (Transfers true q) := decide_eq_decide.2 hx.symm
    rw [e] at h1
    obtain ⟨i1, i2⟩ := ih (n + 1) _ _ h1 ha.2 hd.2
    refine ⟨i1, ?_⟩
    simp only [fifoOuts, List.flatten_cons, FifoDev.run, List.append_assoc]
    rw [i2, ← List.append_assoc, h2]
    rw [show q :: t = [q] ++ t from rfl, transferred_append]
    by_cases hq : Transfers true q
    · simp [transferred, hq, hx.1 hq]
    · have : ¬ (q.1.valid = .one ∧ d.ready = true) := fun h => hq (hx.2 h)
      simp [transferred, hq, this]

theorem apart_quiet (t : List (StOut × StIn)) (h : ∀ q ∈ t, ¬ Transfers true q) : ∀ hot, Apart hot t ∧ (hotEnd hot t = if t = [] then hot else false) := by
  induction t with
  | nil => intro hot; exact ⟨trivial, rfl⟩
  | cons q t ih =>
    intro hot
    have hq := h q (by simp)
    obtain ⟨i1, i2⟩ := ih (fun q hq => h q (by simp [hq])) false
    have e : decide (Transfers true q) = false := decide_eq_false hq
    refine ⟨⟨fun h => absurd h hq, by rw [e]; exact i1⟩, ?_⟩
    simp only [hotEnd, e, i2]
    simp

theorem transferred_quiet (t : List (StOut × StIn)) (h : ∀ q ∈ t, ¬ Transfers true q) : transferred true t = [] := by
  rw [transferred, List.map_eq_nil_iff, List.filter_eq_nil_iff]
  intro q hq
  simp [h q hq]

theorem stream_word (b : Byte) : createBinary (.int b.toNat) streamCfg.width false = .ok (.array (joinBytes [b])) := by
  have h : b.toNat < 2 ^ 8 := b.isLt
  simp [createBinary, createBinaryInt, streamCfg, h, joinBytes, byteBits]

/-- the sending of one word -/
theorem streamSend_shape (x : StreamItem) (v : Valids) (s : Sim StIn StOut) (hs : s.phase ≠ .ro) (hot : Bool) (hx : hot = false ∨ x.sync = true) :
    Apart hot (streamSend x v s).1 ∧
    ((∃ v' s', (streamSend x v s).2 = .ok v' s' ∧ s'.phase ≠ .ro ∧ transferred true (streamSend x v s).1 = [joinBytes [x.byte]] ∧
        (0 < x.pause → hotEnd hot (streamSend x v s).1 = false) ∧
        ∃ a b, (streamSend x v s).1 = a ++ b ∧ a ≠ [] ∧ b.length = x.pause ∧ ∀ q ∈ b, q.1.valid = .zero) ∨
     ((∃ s', (streamSend x v s).2 = .blocked s') ∧ (transferred true (streamSend x v s).1 = [] ∨ transferred true (streamSend x v s).1 = [joinBytes [x.byte]]))) := by
  obtain ⟨idle, hidle, hrun⟩ := stSend_run streamCfg (.int x.byte.toNat) _ (stream_word x.byte) x.sync v s hs
  have hid : ∀ q ∈ idle, ¬ Transfers true q := fun q hq h => by
    have := h.1
    rw [hidle q hq] at this
    cases this
  have hbase : streamSend x v s = (stSend streamCfg (.int x.byte.toNat) x.sync v >>= fun v => edges x.pause >>= fun _ => pure v) s := rfl
  rcases hrun with ⟨s', h1, _, _⟩ | ⟨hlen, ws, hws, ⟨s', h1, _, _⟩ | ⟨a, s', h1, ha, ho, hp⟩⟩
  · have e : streamSend x v s = (idle, .blocked s') := by rw [hbase]; simp [bind_run, h1]
    rw [e]
    exact ⟨(apart_quiet idle hid hot).1, .inr ⟨⟨_, rfl⟩, .inl (transferred_quiet _ hid)⟩⟩
  · have e : streamSend x v s = (idle ++ ws.map (fun i => (⟨.one, joinBytes [x.byte]⟩, i)), .blocked s') := by rw [hbase]; simp [bind_run, h1, BinVal.bits]
    rw [e]
    have hq : ∀ q ∈ idle ++ ws.map (fun i => ((⟨.one, joinBytes [x.byte]⟩ : StOut), i)), ¬ Transfers true q := by
      intro q hq
      rcases List.mem_append.1 hq with hq | hq
      · exact hid q hq
      · obtain ⟨i, hi, rfl⟩ := List.mem_map.1 hq
        intro h
        exact (hws i hi).2 (h.2 rfl)
    exact ⟨(apart_quiet _ hq hot).1, .inr ⟨⟨_, rfl⟩, .inl (transferred_quiet _ hq)⟩⟩
  · have hq : ∀ q ∈ idle ++ ws.map (fun i => ((⟨.one, joinBytes [x.byte]⟩ : StOut), i)), ¬ Transfers true q := by
      intro q hq
      rcases List.mem_append.1 hq with hq | hq
      · exact hid q hq
      · obtain ⟨i, hi, rfl⟩ := List.mem_map.1 hq
        intro h
        exact (hws i hi).2 (h.2 rfl)
    generalize hA : idle ++ ws.map (fun i => ((⟨.one, joinBytes [x.byte]⟩ : StOut), i)) = A at hq
    generalize hB : (sampled x.pause s').map (fun i => (s'.out, i)) = B
    have hBv : ∀ q ∈ B, q.1.valid = .zero := by
      intro q hq
      rw [← hB] at hq
      obtain ⟨i, _, rfl⟩ := List.mem_map.1 hq
      exact ho
    have hBq : ∀ q ∈ B, ¬ Transfers true q := fun q hq h => by
      have := h.1
      rw [hBv q hq] at this
      cases this
    have ht : Transfers true ((⟨.one, joinBytes [x.byte]⟩ : StOut), a) := ⟨rfl, fun _ => ha rfl⟩
    have e : streamSend x v s = (A ++ [(⟨.one, joinBytes [x.byte]⟩, a)] ++ B,
        if x.pause ≤ s'.rest.length then .ok (gapStep v).2 (advance x.pause s') else .blocked (advance x.pause s')) := by
      rw [hbase, ← hA, ← hB]
      rw [bind_run, h1]
      simp only [BinVal.bits]
      simp only [Res.andThen, bind_run, edges_run]
      by_cases hle : x.pause ≤ s'.rest.length
      · simp [hle, pure_run, Res.andThen]
      · simp [hle, Res.andThen]
    rw [e]
    have htr : transferred true (A ++ [((⟨.one, joinBytes [x.byte]⟩ : StOut), a)] ++ B) = [joinBytes [x.byte]] := by
      rw [transferred_append, transferred_append, transferred_quiet A hq, transferred_quiet B hBq]
      have : decide (Transfers true ((⟨.one, joinBytes [x.byte]⟩ : StOut), a)) = true := decide_eq_true ht
      simp only [transferred, List.filter_cons, this, if_true, List.filter_nil, List.map_cons, List.map_nil, List.nil_append, List.append_nil]
    have hAhot : hotEnd hot A = false := by
      rw [(apart_quiet A hq hot).2]
      by_cases hn : A = []
      · rw [if_pos hn]
        rcases hx with h | h
        · exact h
        · have : idle = [] := by
            rw [← hA] at hn
            exact (List.append_eq_nil_iff.1 hn).1
          rw [this, h] at hlen
          simp at hlen
          omega
      · rw [if_neg hn]
    refine ⟨?_, ?_⟩
    · rw [apart_append, apart_append]
      refine ⟨⟨(apart_quiet A hq hot).1, ?_⟩, (apart_quiet B hBq _).1⟩
      rw [hAhot]
      exact ⟨fun _ => rfl, trivial⟩
    · by_cases hle : x.pause ≤ s'.rest.length
      · left
        rw [if_pos hle]
        have hBl : B.length = x.pause := by rw [← hB, List.length_map]; rw [sampled_length]; omega
        refine ⟨_, _, rfl, advance_phase _ _ (by rw [hp]; decide), htr, ?_, _, B, rfl, by simp, hBl, hBv⟩
        intro h0
        rw [hotEnd_append, (apart_quiet B hBq _).2, if_neg]
        intro hn
        rw [hn] at hBl
        simp at hBl
        omega
      · right
        rw [if_neg hle]
        exact ⟨⟨_, rfl⟩, .inr htr⟩

/-! ## The scoreboard -/

/-- the expected list over a history in which all receptions are the expected ones -/
def TracksTo {T : Type} (mid ref : Nat) : List T → List (SbOp T) → List T → Prop
  | E, [], E' => E = E'
  | E, .recv m t :: r, E' => m = mid ∧ ∃ E1, E = t :: E1 ∧ TracksTo mid ref E1 r E'
  | E, .extend rf ts :: r, E' => rf = ref ∧ TracksTo mid ref (E ++ ts) r E'

section
variable {T : Type} {mid ref : Nat}

theorem TracksTo.append {a b : List (SbOp T)} : ∀ {E E' E'' : List T}, TracksTo mid ref E a E' → TracksTo mid ref E' b E'' → TracksTo mid ref E (a ++ b) E'' := by
  induction a with
  | nil => intro E E' E'' h1 h2; obtain rfl : E = E' := h1; exact h2
  | cons o a ih =>
    intro E E' E'' h1 h2
    cases o with
    | recv m t => obtain ⟨hm, E1, he, h⟩ := h1; exact ⟨hm, E1, he, ih h h2⟩
    | extend rf ts => exact ⟨h1.1, ih h1.2 h2⟩

theorem TracksTo.prefix {a b : List (SbOp T)} : ∀ {E E' : List T}, TracksTo mid ref E (a ++ b) E' → ∃ E1, TracksTo mid ref E a E1 := by
  induction a with
  | nil => intro E E' _; exact ⟨E, rfl⟩
  | cons o a ih =>
    intro E E' h
    cases o with
    | recv m t =>
      obtain ⟨hm, E1, he, h⟩ := h
      obtain ⟨E2, h2⟩ := ih h
      exact ⟨E2, hm, E1, he, h2⟩
    | extend rf ts =>
      obtain ⟨E2, h2⟩ := ih h.2
      exact ⟨E2, h.1, h2⟩

theorem TracksTo.balance {h : List (SbOp T)} : ∀ {E E' : List T}, TracksTo mid ref E h E' → E ++ addedTo ref h = receivedOf mid h ++ E' := by
  induction h with
  | nil => intro E E' h; obtain rfl : E = E' := h; simp [addedTo, receivedOf]
  | cons o a ih =>
    intro E E' h
    cases o with
    | recv m t =>
      obtain ⟨rfl, E1, rfl, h⟩ := h
      simp [addedTo, receivedOf, ih h]
    | extend rf ts =>
      obtain ⟨rfl, h⟩ := h
      have := ih h
      simp [addedTo, receivedOf, ← this]

theorem TracksTo.recvs (W : List T) (E : List T) : TracksTo mid ref (W ++ E) (W.map (.recv mid)) E := by
  induction W with
  | nil => rfl
  | cons t W ih => exact ⟨rfl, W ++ E, rfl, ih⟩

theorem TracksTo.play (ops : TxnOps T) (strict : Bool) (hops : ∀ t, Accepts ops strict t t) (info : MonInfo) (hname : info.name ≠ none)
    (h : List (SbOp T)) : ∀ (w : World T) (E' : List T), (w.mons mid).callbacks = [checkReceived ops info (.list ref) 0 strict] → w.sb.errors = 0 →
    TracksTo mid ref (w.sb.heap ref) h E' → (playSb h w).sb.errors = 0 ∧ (playSb h w).sb.heap ref = E' := by
  induction h with
  | nil => intro w E' _ h0 h; exact ⟨h0, h⟩
  | cons o r ih =>
    intro w E' hcb h0 h
    cases o with
    | recv m t =>
      obtain ⟨rfl, E1, he, h⟩ := h
      obtain ⟨o1, o2, o3⟩ := receive_online ops info hname w m ref strict t hcb h0
      refine ih _ E' (by rw [receive_callbacks]; exact hcb) (o1.2 ⟨t, E1, he, hops t⟩) ?_
      rw [o2 t E1 he]
      exact h
    | extend rf ts =>
      obtain ⟨rfl, h⟩ := h
      refine ih _ E' hcb h0 ?_
      rw [setList_heap]
      exact h

end

/-! ## Reports -/

/-- what the monitor makes of a word -/
def decWord (w : LogicArray) : Bytes := [BitVec.ofNat 8 (bitsToNat w)]

theorem decWord_byte (b : Byte) : decWord (joinBytes [b]) = [b] := by
  simp [decWord, joinBytes, byteBits, bitsToNat_natToBits]
  apply BitVec.eq_of_toNat_eq
  simp
  exact b.isLt

theorem report_eq (mon : Nat) (d : FifoDev) (take : Logic) (h : ∀ w ∈ d.out take, ∃ b, w = joinBytes [b]) :
    (stMonitor streamCfg [d.source take]).1.map (SbOp.recv mon) = (d.out take).map (fun w => .recv mon (decWord w)) := by
  by_cases hc : d.valid = true ∧ take = .one
  · have ho : d.out take = [d.data] := if_pos hc
    rw [ho] at h ⊢
    obtain ⟨b, hb⟩ := h d.data (by simp)
    rw [stMonitor_bytes streamCfg [[b]] _ (by simp [transferred, Transfers, FifoDev.source, hc, Logic.ofBool, streamCfg, hb])]
    simp only [List.map_cons, List.map_nil, hb, decWord_byte, streamCfg]
    rfl
  · have ho : d.out take = [] := if_neg hc
    rw [ho, stMonitor_bytes streamCfg [] _]
    · rfl
    · refine transferred_quiet _ ?_
      intro q hq ht
      rw [List.mem_singleton.1 hq] at ht
      refine hc ⟨?_, ht.2 rfl⟩
      have := ht.1
      simp only [FifoDev.source] at this
      cases hv : d.valid <;> simp_all [Logic.ofBool]

theorem fifoReports_eq (mon : Nat) (take : Nat → Logic) (t : List (StOut × StIn)) : ∀ n d, (∀ w ∈ (fifoOuts take n d t).flatten, ∃ b, w = joinBytes [b]) →
    fifoReports mon take n d t = (fifoOuts take n d t).map (fun l => l.map (fun w => .recv mon (decWord w))) := by
  induction t with
  | nil => intro n d _; rfl
  | cons q t ih =>
    intro n d h
    simp only [fifoReports, fifoOuts, List.map_cons]
    rw [report_eq, ih]
    · intro w hw; exact h w (by simp [fifoOuts]; right; simpa using hw)
    · intro w hw; exact h w (by simp [fifoOuts, hw])

theorem dropLast_getLast {α : Type} (l : List (List α)) : l.dropLast.flatten ++ l.getLast?.getD [] = l.flatten := by
  rcases List.eq_nil_or_concat l with h | ⟨a, b, h⟩
  · subst h; rfl
  · subst h; simp

theorem fifoReports_append (mon : Nat) (take : Nat → Logic) (a b : List (StOut × StIn)) : ∀ n d,
    fifoReports mon take n d (a ++ b) = fifoReports mon take n d a ++ fifoReports mon take (n + a.length) (d.run take n a) b := by
  induction a with
  | nil => intro n d; rfl
  | cons q t ih =>
    intro n d
    simp only [List.cons_append, fifoReports, FifoDev.run, ih, List.length_cons]
    rw [show n + 1 + t.length = n + (t.length + 1) by omega]

theorem countEdges_succ (n p : Nat) (f : Nat → Bool) : countEdges n (p + 1) f = (if f n then 1 else 0) + countEdges (n + 1) p f := by
  unfold countEdges
  rw [List.range_succ_eq_map, List.filter_cons, List.filter_map, Nat.add_zero]
  have e : ((fun j => f (n + j)) ∘ Nat.succ) = fun j => f (n + 1 + j) := by
    funext j
    simp only [Function.comp_def]
    rw [show n + j.succ = n + 1 + j by omega]
  rw [e]
  split
  · simp; omega
  · simp

/-- nothing is put in: the words go out one by one -/
theorem fifo_drain (take : Nat → Logic) (t : List (StOut × StIn)) (ht : ∀ q ∈ t, q.1.valid = .zero) : ∀ (n : Nat) (d : FifoDev) (hot : Bool), d.Ok hot →
    (∃ hot', (d.run take n t).Ok hot') ∧ (d.run take n t).size = d.size - countEdges n t.length (fun j => decide (take j = .one)) := by
  induction t with
  | nil => intro n d hot h; exact ⟨⟨hot, h⟩, by simp [FifoDev.run, countEdges]⟩
  | cons q t ih =>
    intro n d hot h
    have hq : ¬ (q.1.valid = .one ∧ d.ready = true) := by
      intro h
      rw [ht q (by simp)] at h
      cases h.1
    obtain ⟨h1, _⟩ := fifo_step d hot h q.1 (take n) (fun a b => absurd ⟨a, b⟩ hq)
    obtain ⟨i1, i2⟩ := ih (fun q hq => ht q (by simp [hq])) (n + 1) _ _ h1
    refine ⟨i1, ?_⟩
    simp only [FifoDev.run, i2, List.length_cons, countEdges_succ]
    have hs : (d.step q.1 (take n)).size = d.size - (if decide (take n = .one) = true then 1 else 0) := by
      have hv := h.valid
      by_cases hn : take n = .one
      · by_cases h0 : 0 < d.size
        · simp [FifoDev.step, hq, hn, hv, h0]
        · have : d.size = 0 := by omega
          simp [FifoDev.step, hq, hn, hv, this]
      · simp [FifoDev.step, hq, hn]
    rw [hs]
    omega

theorem outs_words {hot : Bool} {d : FifoDev} (take : Nat → Logic) (n : Nat) (t : List (StOut × StIn)) (h : d.Ok hot) (ha : Apart hot t) (hd : FifoDev.Drives take n d t)
    (hb : ∀ w ∈ d.words, ∃ b, w = joinBytes [b]) (b : Byte) (ht : transferred true t = [] ∨ transferred true t = [joinBytes [b]]) :
    (∀ w ∈ (fifoOuts take n d t).flatten, ∃ b, w = joinBytes [b]) ∧ (∀ w ∈ (d.run take n t).words, ∃ b, w = joinBytes [b]) := by
  obtain ⟨_, h2⟩ := fifo_run take t n d hot h ha hd
  have : ∀ w ∈ d.words ++ transferred true t, ∃ b, w = joinBytes [b] := by
    intro w hw
    rcases List.mem_append.1 hw with hw | hw
    · exact hb w hw
    · rcases ht with ht | ht
      · rw [ht] at hw; cases hw
      · rw [ht] at hw; exact ⟨b, List.mem_singleton.1 hw⟩
  rw [← h2] at this
  exact ⟨fun w hw => this w (List.mem_append.2 (.inl hw)), fun w hw => this w (List.mem_append.2 (.inr hw))⟩

theorem streamTest_tracks (mon ref : Nat) (take : Nat → Logic) (first : Nat → Bool) (items : List StreamItem) :
    ∀ (k n : Nat) (d : FifoDev) (R : List Bytes) (v : Valids) (s : Sim StIn StOut) (hot : Bool), d.Ok hot → (∀ w ∈ d.words, ∃ b, w = joinBytes [b]) → s.phase ≠ .ro →
    (∀ x ∈ items.head?, hot = false ∨ x.sync = true) → NotBackToBack items →
    FifoDev.Drives take n d (streamTest mon ref take first k n d (R.map (.recv mon)) items v s).trace →
    ∃ E', TracksTo mon ref (R ++ d.words.map decWord) (streamTest mon ref take first k n d (R.map (.recv mon)) items v s).events E' ∧
      addedTo ref (streamTest mon ref take first k n d (R.map (.recv mon)) items v s).events <+: items.map (fun x => [x.byte]) ∧
      ((streamTest mon ref take first k n d (R.map (.recv mon)) items v s).done = true →
        addedTo ref (streamTest mon ref take first k n d (R.map (.recv mon)) items v s).events = items.map (fun x => [x.byte]) ∧
        ∃ L hot', (streamTest mon ref take first k n d (R.map (.recv mon)) items v s).late = L.map (.recv mon) ∧
        (streamTest mon ref take first k n d (R.map (.recv mon)) items v s).dev.Ok hot' ∧
        E' = L ++ (streamTest mon ref take first k n d (R.map (.recv mon)) items v s).dev.words.map decWord ∧
        ∀ x ∈ items.getLast?, min 10 (d.size + items.length) ≤ countEdges (n + (streamTest mon ref take first k n d (R.map (.recv mon)) items v s).trace.length - x.pause) (x.pause - 1) (fun j => decide (take j = .one)) →
          (streamTest mon ref take first k n d (R.map (.recv mon)) items v s).dev.size = 0 ∧ (streamTest mon ref take first k n d (R.map (.recv mon)) items v s).late = []) := by
  have haddR : ∀ R : List Bytes, addedTo ref (R.map (SbOp.recv mon)) = [] := by
    intro R
    induction R with
    | nil => rfl
    | cons t R ih => exact ih
  have hfl : ∀ o : List (List LogicArray), (o.map (fun l => l.map (fun w => (SbOp.recv mon (decWord w) : SbOp Bytes)))).flatten = (o.flatten.map decWord).map (.recv mon) := by
    intro o
    rw [← List.map_flatten, List.map_map]
    rfl
  induction items with
  | nil =>
    intro k n d R v s hot h hb hs _ _ _
    simp only [streamTest]
    by_cases hk : first k = true
    · simp only [hk, if_true]
      exact ⟨_, rfl, List.nil_prefix, fun _ => ⟨rfl, R, hot, rfl, h, rfl, by simp⟩⟩
    · simp only [hk]
      refine ⟨_, TracksTo.recvs R _, by rw [if_neg (by simp), haddR]; exact List.nil_prefix, fun _ => ⟨haddR R, [], hot, rfl, h, rfl, by simp⟩⟩
  | cons x xs ih =>
    intro k n d R v s hot h hb hs hhot hnb hd
    obtain ⟨hap, hsh⟩ := streamSend_shape x v s hs hot (hhot x (by simp))
    -- the expected word and the reports of the edge before
    have hev : TracksTo mon ref (R ++ d.words.map decWord) (if first k then .extend ref [[x.byte]] :: R.map (.recv mon) else R.map (.recv mon) ++ [.extend ref [[x.byte]]])
        (d.words.map decWord ++ [[x.byte]]) := by
      by_cases hk : first k = true
      · rw [if_pos hk]
        refine ⟨rfl, ?_⟩
        rw [List.append_assoc]
        exact TracksTo.recvs R _
      · rw [if_neg hk]
        exact (TracksTo.recvs R _).append ⟨rfl, rfl⟩
    have hadd : addedTo ref (if first k then .extend ref [[x.byte]] :: R.map (.recv mon) else R.map (.recv mon) ++ [.extend ref [[x.byte]]]) = [[x.byte]] := by
      by_cases hk : first k = true
      · rw [if_pos hk]; simp [addedTo, haddR]
      · rw [if_neg hk]; simp [addedTo_append, addedTo, haddR]
    rcases hsh with ⟨v', s', hok, hp', htr, hhe, a, b, hab, hane, hbl, hbv⟩ | ⟨⟨s', hbk⟩, htr⟩
    · simp only [streamTest, hok] at hd ⊢
      rw [fifo_drives_append] at hd
      obtain ⟨hd1, hd2⟩ := hd
      obtain ⟨hO, hbal⟩ := fifo_run take _ n d hot h hap hd1
      obtain ⟨hbo, hbw⟩ := outs_words take n _ h hap hd1 hb x.byte (.inr htr)
      have hrep := fifoReports_eq mon take (streamSend x v s).1 n d hbo
      generalize hL : ((fifoOuts take n d (streamSend x v s).1).getLast?.getD []).map decWord = L
      generalize hF : ((fifoOuts take n d (streamSend x v s).1).dropLast.flatten).map decWord = F
      have hlast : (fifoReports mon take n d (streamSend x v s).1).getLast?.getD [] = L.map (SbOp.recv mon) := by
        rw [hrep, ← hL, List.getLast?_map]
        cases (fifoOuts take n d (streamSend x v s).1).getLast? <;> simp
      have hfront : (fifoReports mon take n d (streamSend x v s).1).dropLast.flatten = F.map (SbOp.recv mon) := by
        rw [hrep, ← hF, ← List.map_dropLast, hfl]
      have hFL : F ++ (L ++ (d.run take n (streamSend x v s).1).words.map decWord) = d.words.map decWord ++ [[x.byte]] := by
        have := congrArg (List.map decWord) hbal
        rw [← dropLast_getLast, htr] at this
        simp only [List.map_append, List.map_cons, List.map_nil, decWord_byte, hF, hL] at this
        rw [← this, List.append_assoc]
      rw [hlast] at hd2 ⊢
      rw [hfront]
      have hnext : ∀ y ∈ xs.head?, hotEnd hot (streamSend x v s).1 = false ∨ y.sync = true := by
        intro y hy
        cases xs with
        | nil => cases hy
        | cons z zs =>
          obtain rfl : z = y := by simpa using hy
          rcases hnb.1 with h | h
          · exact .inl (hhe h)
          · exact .inr h
      have hnb' : NotBackToBack xs := by
        cases xs with
        | nil => trivial
        | cons z zs => exact hnb.2
      obtain ⟨E', t1, t2, t3⟩ := ih (k + 1) _ _ L v' s' _ hO hbw hp' hnext hnb' hd2
      refine ⟨E', ?_, ?_, ?_⟩
      · refine (hev.append ?_).append t1
        rw [← hFL]
        exact TracksTo.recvs F _
      · rw [addedTo_append, addedTo_append, hadd, haddR, List.append_nil]
        simpa using t2
      · intro hdone
        obtain ⟨u0, L', hot', u1, u2, u3, u4⟩ := t3 hdone
        refine ⟨by rw [addedTo_append, addedTo_append, hadd, haddR, u0]; rfl, L', hot', u1, u2, u3, ?_⟩
        have hsz : (d.run take n (streamSend x v s).1).size ≤ d.size + 1 := by
          have := congrArg List.length hbal
          rw [htr, List.length_append, List.length_append, words_length hO, words_length h] at this
          simp at this
          omega
        intro z hz hcount
        cases xs with
        | cons y ys =>
          refine u4 z (by simpa using hz) ?_
          rw [List.length_append] at hcount
          rw [Nat.add_assoc]
          refine Nat.le_trans ?_ hcount
          simp only [List.length_cons]
          omega
        | nil =>
          obtain rfl : x = z := by simpa using hz
          simp only [streamTest, List.append_nil] at hcount ⊢
          rw [hab] at hap hd1 hsz hlast ⊢
          rw [hab] at hcount
          rw [apart_append] at hap
          rw [fifo_drives_append] at hd1
          obtain ⟨hOa, hbala⟩ := fifo_run take a n d hot h hap.1 hd1.1
          obtain ⟨b', q, rfl⟩ : ∃ b' q, b = b' ++ [q] := by
            rcases List.eq_nil_or_concat b with hn | ⟨b', q, hn⟩
            · subst hn
              simp only [List.length_nil] at hbl
              rw [← hbl] at hcount
              simp [countEdges] at hcount
            · exact ⟨b', q, by simpa using hn⟩
          have hsa : (d.run take n a).size ≤ min 10 (d.size + 1) := by
            have h10 := hOa.size
            have hta : (transferred true a).length ≤ 1 := by
              have := congrArg List.length htr
              rw [hab, transferred_append, List.length_append] at this
              simp at this
              omega
            have := congrArg List.length hbala
            rw [List.length_append, List.length_append, words_length hOa, words_length h] at this
            omega
          obtain ⟨⟨hot2, hO2⟩, hs2⟩ := fifo_drain take b' (fun q hq => hbv q (by simp [hq])) (n + a.length) _ _ hOa
          have hb'l : b'.length = x.pause - 1 := by
            rw [List.length_append] at hbl
            simp at hbl
            omega
          have hs2' : ((d.run take n a).run take (n + a.length) b').size = 0 := by
            rw [hs2, hb'l]
            rw [List.length_append, hbl, show n + (a.length + x.pause) - x.pause = n + a.length by omega] at hcount
            simp only [List.length_singleton] at hcount
            omega
          obtain ⟨_, hs3⟩ := fifo_drain take (b' ++ [q]) hbv (n + a.length) _ _ hOa
          have hempty : L = [] := by
            have e : (fifoReports mon take n d (a ++ (b' ++ [q]))).getLast?.getD [] = [] := by
              rw [← List.append_assoc, fifoReports_append, fifo_run_append]
              simp only [fifoReports]
              rw [report_eq]
              · have hv := hO2.valid
                rw [hs2'] at hv
                simp [FifoDev.out, hv]
              · intro w hw
                have hv := hO2.valid
                rw [hs2'] at hv
                simp [FifoDev.out, hv] at hw
            rw [e] at hlast
            exact List.map_eq_nil_iff.1 hlast.symm
          constructor
          · rw [fifo_run_append, fifo_run_append]
            have := fifo_drain take [q] (fun r hr => hbv r (by simp at hr; simp [hr])) (n + a.length + b'.length) _ _ hO2
            rw [this.2, hs2']
            omega
          · rw [hempty]
            simp
    · simp only [streamTest, hbk] at hd ⊢
      obtain ⟨hO, hbal⟩ := fifo_run take _ n d hot h hap hd
      obtain ⟨hbo, hbw⟩ := outs_words take n _ h hap hd hb x.byte htr
      rw [fifoReports_eq mon take (streamSend x v s).1 n d hbo, hfl]
      refine ⟨(d.run take n (streamSend x v s).1).words.map decWord ++ (if transferred true (streamSend x v s).1 = [] then [[x.byte]] else []), ?_, ?_, fun h => absurd h (by simp)⟩
      · refine hev.append ?_
        have e : d.words.map decWord ++ [[x.byte]] = (fifoOuts take n d (streamSend x v s).1).flatten.map decWord ++ ((d.run take n (streamSend x v s).1).words.map decWord ++ (if transferred true (streamSend x v s).1 = [] then [[x.byte]] else [])) := by
          rw [← List.append_assoc, ← List.map_append, hbal, List.map_append, List.append_assoc]
          congr 1
          rcases htr with ht | ht
          · simp [ht]
          · rw [ht, if_neg (by simp)]; simp only [List.map_cons, List.map_nil, decWord_byte, List.append_nil]
        rw [e]
        exact TracksTo.recvs _ _
      · rw [addedTo_append, hadd, haddR]
        simp

end CocotbBus
