import Verif.Spec.AxiTests
import Verif.Proof.AxiReadProps
import Verif.Proof.MemBytes

/-! # The AXI4 tests -/

namespace CocotbBus
open Spec Coro

/-! ### words and bytes -/

theorem asInt_memWord (mem : Nat → Byte) (x k : Nat) : asInt (memWord (asBits mem) x k) = some (leVal ((List.range k).map fun j => mem (x + j))) := by
  rw [memWord_value (asBits mem) x (leVal ((List.range k).map fun j => mem (x + j))) k]
  · unfold asInt
    have := leVal_range_lt k (fun j => mem (x + j))
    rw [if_pos (by simp), bitsToNat_natToBits, Nat.mod_eq_of_lt (by rw [Nat.pow_mul]; exact this)]
  · intro j hj
    rw [byteOf_leVal k _ j hj]
    rfl

theorem mapM_range {α β : Type} (n : Nat) (f : Nat → α) (h : α → Option β) (g : Nat → β) (hh : ∀ i < n, h (f i) = some (g i)) :
    ((List.range n).map f).mapM h = some ((List.range n).map g) := by
  induction n with
  | zero => rfl
  | succ n ih =>
    rw [List.range_succ, List.map_append, List.map_append, List.mapM_append, ih (fun i hi => hh i (by omega))]
    simp [hh n (by omega)]

theorem addWstrbFrom_testBit (p v w : Nat) : ∀ (k i r q : Nat),
    (addWstrbFrom p v w k i r).testBit q = (r.testBit q || (decide (8 * i ≤ q ∧ q < 8 * (i + k)) && (if w.testBit (q / 8) then v.testBit q else p.testBit q))) := by
  intro k
  induction k with
  | zero => intro i r q; simp [addWstrbFrom]; omega
  | succ k ih =>
    intro i r q
    rw [addWstrbFrom, ih, Nat.testBit_or, Nat.testBit_and, Nat.mul_comm i 8, testBit_ff]
    have hw : (w &&& (1 <<< i) ≠ 0) ↔ w.testBit i = true := by
      rw [Nat.one_shiftLeft, and_two_pow]
      cases w.testBit i <;> simp
    by_cases h1 : 8 * i ≤ q ∧ q < 8 * i + 8
    · have hq : q / 8 = i := by omega
      rw [hq]
      have e1 : decide (8 * (i + 1) ≤ q ∧ q < 8 * (i + 1 + k)) = false := by rw [decide_eq_false_iff_not]; omega
      have e2 : decide (8 * i ≤ q ∧ q < 8 * (i + (k + 1))) = true := by rw [decide_eq_true_eq]; omega
      rw [e1, e2]
      by_cases hb : w.testBit i = true
      · simp [hb, hw.2 hb, h1]
      · simp [hb, mt hw.1 hb, h1]
    · have e1 : decide (8 * (i + 1) ≤ q ∧ q < 8 * (i + 1 + k)) = decide (8 * i ≤ q ∧ q < 8 * (i + (k + 1))) := by
        apply Bool.eq_iff_iff.2
        rw [decide_eq_true_eq, decide_eq_true_eq]
        omega
      rw [e1]
      simp [h1]

theorem addWstrbMask_lt (n p v w : Nat) : addWstrbMask n p v w < 256 ^ n := by
  rw [show (256 : Nat) = 2 ^ 8 by rfl, ← Nat.pow_mul]
  apply Nat.lt_pow_two_of_testBit
  intro q hq
  rw [addWstrbMask, addWstrbFrom_testBit]
  simp
  omega

theorem byteOf_addWstrbMask (n p v w j : Nat) (hj : j < n) : byteOf (addWstrbMask n p v w) j = if w.testBit j then byteOf v j else byteOf p j := by
  apply BitVec.eq_of_getLsbD_eq
  intro q hq
  rw [byteOf_getLsbD, addWstrbMask, addWstrbFrom_testBit]
  have h1 : (8 * j + q) / 8 = j := by omega
  have h2 : decide (8 * 0 ≤ 8 * j + q ∧ 8 * j + q < 8 * (0 + n)) = true := by rw [decide_eq_true_eq]; omega
  rw [h1, h2]
  cases w.testBit j with
  | false => simp only [Bool.false_eq_true, if_false, byteOf_getLsbD]; simp
  | true => simp only [if_true, byteOf_getLsbD]; simp

theorem bytesOfWords_length (sz : Nat) (l : List Nat) : (bytesOfWords sz l).length = sz * l.length := by
  induction l with
  | nil => rfl
  | cons v l ih =>
    rw [bytesOfWords, List.flatMap_cons, List.length_append, natToBytesLE_length, List.length_cons, Nat.mul_succ, ← ih]
    exact Nat.add_comm _ _

theorem natToBytesLE_getElem? (k : Nat) : ∀ (n j : Nat), j < k → (natToBytesLE k n)[j]? = some (byteOf n j) := by
  induction k with
  | zero => intro n j h; omega
  | succ k ih =>
    intro n j h
    rw [natToBytesLE]
    cases j with
    | zero => simp [byteOf]
    | succ j => rw [List.getElem?_cons_succ, ih _ _ (by omega), byteOf_succ]

theorem bytesOfWords_getElem? (sz : Nat) (hsz : 0 < sz) (l : List Nat) : ∀ j, j < sz * l.length →
    (bytesOfWords sz l)[j]? = some (byteOf (l.getD (j / sz) 0) (j % sz)) := by
  induction l with
  | nil => intro j h; simp at h
  | cons v l ih =>
    intro j h
    rw [bytesOfWords, List.flatMap_cons]
    by_cases hj : j < sz
    · rw [List.getElem?_append_left (by simpa using hj), natToBytesLE_getElem? _ _ _ hj, Nat.div_eq_of_lt hj, Nat.mod_eq_of_lt hj]
      rfl
    · rw [List.getElem?_append_right (by simpa using hj), natToBytesLE_length]
      have := ih (j - sz) (by rw [List.length_cons, Nat.mul_succ] at h; omega)
      rw [bytesOfWords] at this
      rw [this]
      have e1 : j / sz = (j - sz) / sz + 1 := by
        rw [← Nat.add_div_right _ hsz, Nat.sub_add_cancel (by omega)]
      have e2 : j % sz = (j - sz) % sz := (Nat.mod_eq_sub_mod (by omega))
      rw [e1, e2]
      rfl

/-- a string of bytes in memory -/
def Holding (mem : Nat → Byte) (a : Nat) (b : Bytes) : Prop := ∀ j < b.length, mem (a + j) = b.getD j 0

theorem holding_word {mem : Nat → Byte} {a : Nat} {b : Bytes} (h : Holding mem a b) (x k : Nat) (hk : x + k ≤ b.length) :
    (List.range k).map (fun j => mem (a + x + j)) = (b.drop x).take k := by
  apply List.ext_getElem
  · simp; omega
  · intro n h1 h2
    have hn : n < k := by simpa using h1
    simp only [List.getElem_map, List.getElem_range, List.getElem_take, List.getElem_drop]
    rw [Nat.add_assoc, h (x + n) (by omega), List.getD_eq_getElem?_getD, List.getElem?_eq_getElem (by omega)]
    rfl

/-- an INCR read of a string of bytes -/
theorem read_bytes (mem : Nat → Byte) (sz a n : Nat) (b : Bytes) (hsz : 0 < sz) (hb : b.length = n * sz - a % sz) (h : Holding mem a b) :
    (readFrom sz .incr a n mem).mapM asInt = some (wordsOfBytes sz n b) := by
  unfold readFrom wordsOfBytes
  apply mapM_range
  intro i hi
  have hm := Nat.mod_lt a hsz
  have h1 : (i + 1) * sz ≤ n * sz := Nat.mul_le_mul_right sz hi
  have h0 : (i + 1) * sz = i * sz + sz := Nat.succ_mul i sz
  rw [asInt_memWord]
  split
  · rename_i hlast
    have hl : n * sz = i * sz + sz := by rw [← hlast]; exact h0
    rw [holding_word h _ _ (by omega), List.take_of_length_le (by rw [List.length_drop]; omega), List.take_of_length_le (by rw [List.length_drop]; omega)]
  · rename_i hlast
    have h2 : (i + 1 + 1) * sz ≤ n * sz := Nat.mul_le_mul_right sz (by omega)
    have h3 : (i + 1 + 1) * sz = i * sz + sz + sz := by rw [Nat.succ_mul, h0]
    rw [holding_word h _ _ (by omega)]

/-! ### writes -/

theorem enabled_all (i j : Nat) : axiEnabled [none] i j = true := by
  unfold axiEnabled
  cases i <;> rfl

theorem write_incr (mem : Nat → Byte) (sz a : Nat) (vs : List Nat) (b : Nat) :
    writeTo sz .incr a vs [none] mem b = if a ≤ b ∧ b < a + vs.length * sz - a % sz then byteOf (vs.getD ((b - a) / sz) 0) ((b - a) % sz) else mem b := by
  simp only [writeTo, enabled_all, and_true]

theorem write_holding (mem : Nat → Byte) (sz a : Nat) (hsz : 0 < sz) (vs : List Nat) :
    Holding (writeTo sz .incr a vs [none] mem) a ((bytesOfWords sz vs).take (vs.length * sz - a % sz)) := by
  intro j hj
  rw [List.length_take, bytesOfWords_length] at hj
  have hj' : j < vs.length * sz - a % sz := by omega
  rw [write_incr, if_pos (by omega), Nat.add_sub_cancel_left]
  rw [List.getD_eq_getElem?_getD (l := List.take _ _), List.getElem?_take_of_lt hj', bytesOfWords_getElem? sz hsz vs j (by omega)]
  rfl

theorem storeValues_fixed (sz a len : Nat) (b : Nat) (vs : List Nat) : ∀ (i : Nat) (mem : Nat → Byte),
    storeValues sz .fixed a len [none] i vs mem b = if vs ≠ [] ∧ a ≤ b ∧ b < a + sz - a % sz then byteOf (vs.getLastD 0) (b - a) else mem b := by
  induction vs with
  | nil => intro i mem; simp [storeValues]
  | cons v l ih =>
    intro i mem
    rw [storeValues, ih]
    by_cases h : a ≤ b ∧ b < a + sz - a % sz
    · cases l with
      | nil => simp [storeValue, beatAddr, enabled_all, h]
      | cons w l => simp [h, List.getLast?_cons_cons]
    · rw [if_neg (fun hh => h hh.2), if_neg (fun hh => h hh.2), storeValue]
      exact if_neg (fun hh => h ⟨hh.1, hh.2.1⟩)

/-- a beat that is not written again -/
theorem storeValues_at (sz : Nat) (burst : AxiBurst) (a len : Nat) (b : Nat) (vs : List Nat) : ∀ (i k : Nat) (mem : Nat → Byte), k < vs.length →
    beatAddr sz burst a len (i + k) ≤ b ∧ b < beatAddr sz burst a len (i + k) + sz - beatAddr sz burst a len (i + k) % sz →
    (∀ k', k < k' → k' < vs.length → ¬ (beatAddr sz burst a len (i + k') ≤ b ∧ b < beatAddr sz burst a len (i + k') + sz - beatAddr sz burst a len (i + k') % sz)) →
    storeValues sz burst a len [none] i vs mem b = byteOf (vs.getD k 0) (b - beatAddr sz burst a len (i + k)) := by
  have hnot : ∀ (vs : List Nat) (i : Nat) (mem : Nat → Byte),
      (∀ k' < vs.length, ¬ (beatAddr sz burst a len (i + k') ≤ b ∧ b < beatAddr sz burst a len (i + k') + sz - beatAddr sz burst a len (i + k') % sz)) →
      storeValues sz burst a len [none] i vs mem b = mem b := by
    intro vs
    induction vs with
    | nil => intro i mem _; rfl
    | cons v l ih =>
      intro i mem h
      rw [storeValues, ih (i + 1) _ (fun k' hk => by
        have := h (k' + 1) (by simpa using hk)
        rw [show i + (k' + 1) = i + 1 + k' by omega] at this
        exact this)]
      have := h 0 (by simp)
      rw [Nat.add_zero] at this
      rw [storeValue, if_neg (fun hh => this ⟨hh.1, hh.2.1⟩)]
  induction vs with
  | nil => intro i k mem hk; simp at hk
  | cons v l ih =>
    intro i k mem hk hin hout
    rw [storeValues]
    cases k with
    | zero =>
      rw [hnot l (i + 1) _ (fun k' hk' => by
        have := hout (k' + 1) (by omega) (by simpa using hk')
        rw [show i + (k' + 1) = i + 1 + k' by omega] at this
        exact this)]
      rw [Nat.add_zero] at hin ⊢
      rw [storeValue, if_pos ⟨hin.1, hin.2, enabled_all _ _⟩]
      rfl
    | succ k =>
      rw [show i + (k + 1) = i + 1 + k by omega] at hin ⊢
      rw [ih (i + 1) k _ (by simpa using hk) hin (fun k' h1 h2 => by
        have := hout (k' + 1) (by omega) (by simpa using h2)
        rw [show i + (k' + 1) = i + 1 + k' by omega] at this
        exact this)]
      rfl

theorem mod_ne (d m sz : Nat) (i j n : Nat) (hm : m = sz * n) (hsz : 0 < sz) (hi : i < n) (hj : j < n) (h : (d + i * sz) % m = (d + j * sz) % m) : i = j := by
  have hlt : ∀ k < n, k * sz < m := by
    intro k hk
    rw [hm, Nat.mul_comm]
    exact Nat.mul_lt_mul_of_pos_left hk hsz
  have h1 := hlt i hi
  have h2 := hlt j hj
  have e1 := Nat.div_add_mod (d + i * sz) m
  have e2 := Nat.div_add_mod (d + j * sz) m
  rw [h] at e1
  have hq : (d + i * sz) / m = (d + j * sz) / m := by
    rcases Nat.lt_trichotomy ((d + i * sz) / m) ((d + j * sz) / m) with hl | hl | hl
    · have := Nat.mul_le_mul_left m hl
      rw [Nat.mul_succ] at this
      omega
    · exact hl
    · have := Nat.mul_le_mul_left m hl
      rw [Nat.mul_succ] at this
      omega
  rw [hq] at e1
  exact Nat.eq_of_mul_eq_mul_right hsz (by omega)

/-- the beats of an aligned WRAP burst are different blocks -/
theorem wrap_beats (sz a len : Nat) (hsz : 0 < sz) (ha : a % sz = 0) (i : Nat) : beatAddr sz .wrap a len i % sz = 0 := by
  simp only [beatAddr]
  have hd : sz ∣ a / (sz * len) * (sz * len) := Nat.dvd_trans (Nat.dvd_mul_right sz len) (Nat.dvd_mul_left _ _)
  have ha' : sz ∣ a := Nat.dvd_of_mod_eq_zero ha
  apply Nat.mod_eq_zero_of_dvd
  refine Nat.dvd_add hd ?_
  rw [Nat.dvd_mod_iff (Nat.dvd_mul_right sz len)]
  exact Nat.dvd_add (Nat.dvd_sub ha' hd) (Nat.dvd_mul_left sz i)

theorem wrap_apart (sz a len : Nat) (hsz : 0 < sz) (ha : a % sz = 0) (i j : Nat) (hi : i < len) (hj : j < len) (hij : i ≠ j) (b : Nat)
    (h : beatAddr sz .wrap a len i ≤ b ∧ b < beatAddr sz .wrap a len i + sz) : ¬ (beatAddr sz .wrap a len j ≤ b ∧ b < beatAddr sz .wrap a len j + sz) := by
  intro h2
  obtain ⟨p, hp⟩ := Nat.dvd_of_mod_eq_zero (wrap_beats sz a len hsz ha i)
  obtain ⟨q, hq⟩ := Nat.dvd_of_mod_eq_zero (wrap_beats sz a len hsz ha j)
  have hpq : p = q := by
    rw [hp] at h
    rw [hq] at h2
    have h3 : sz * p < sz * (q + 1) := by rw [Nat.mul_succ]; omega
    have h4 : sz * q < sz * (p + 1) := by rw [Nat.mul_succ]; omega
    have := Nat.lt_of_mul_lt_mul_left h3
    have := Nat.lt_of_mul_lt_mul_left h4
    omega
  apply hij
  have heq : beatAddr sz .wrap a len i = beatAddr sz .wrap a len j := by rw [hp, hq, hpq]
  simp only [beatAddr] at heq
  exact mod_ne _ _ sz i j len rfl hsz hi hj (Nat.add_left_cancel heq)

/-! ### what is read -/

theorem legal_pos (c : AxCfg) (hc : Standard c) (a : Nat) (len : Int) (size : Option Int) (burst : AxiBurst) (h : Legal c a len size burst (bytesPerBeat c size)) :
    0 < bytesPerBeat c size := by
  obtain ⟨⟨j, -, hW⟩, -⟩ := hc
  cases size with
  | none =>
    have := Nat.two_pow_pos j
    rw [← hW] at this
    exact this
  | some s =>
    obtain ⟨k, h1, -⟩ := (h.1 : SizeOk c.dataBytes s ∧ _).1
    have := Nat.two_pow_pos k
    have h2 : s = ((2 ^ k : Nat) : Int) := by rw [h1]; norm_cast
    rw [h2]
    exact this

theorem word_is (mem : Nat → Byte) (x k v : Nat) (hv : v < 256 ^ k) (h : ∀ j < k, byteOf v j = mem (x + j)) : asInt (memWord (asBits mem) x k) = some v := by
  rw [asInt_memWord, ← eq_leVal k v _ hv h]

theorem lt_256 (v k : Nat) (h : ∀ q, 8 * k ≤ q → v.testBit q = false) : v < 256 ^ k := by
  rw [show (256 : Nat) = 2 ^ 8 by rfl, ← Nat.pow_mul]
  exact Nat.lt_pow_two_of_testBit v h

theorem byte_eq (v w j j' : Nat) (h : ∀ q < 8, v.testBit (8 * j + q) = w.testBit (8 * j' + q)) : byteOf v j = byteOf w j' := by
  apply BitVec.eq_of_getLsbD_eq
  intro q hq
  rw [byteOf_getLsbD, byteOf_getLsbD, h q hq]

theorem incr_reads (mem : Nat → Byte) (sz a : Nat) (hsz : 0 < sz) (ha : a % sz = 0) (vs : List Nat) (be : List (Option Nat)) (m : Nat → Nat)
    (hm : ∀ i < vs.length, ∀ j, axiEnabled be i j = (m i).testBit j) :
    ∃ P : Nat → Nat, (readFrom sz .incr a vs.length mem).mapM asInt = some ((List.range vs.length).map P) ∧
      (readFrom sz .incr a vs.length (writeTo sz .incr a vs be mem)).mapM asInt =
        some ((List.range vs.length).map fun i => addWstrbMask sz (P i) (vs.getD i 0) (m i)) := by
  have hk : ∀ i, (if i + 1 = vs.length then sz - a % sz else sz) = sz := by intro i; rw [ha]; split <;> rfl
  refine ⟨fun i => leVal ((List.range sz).map fun j => mem (a + i * sz + j)), ?_, ?_⟩
  · apply mapM_range
    intro i _
    rw [hk, asInt_memWord]
  · apply mapM_range
    intro i hi
    rw [hk]
    refine word_is _ _ _ _ (addWstrbMask_lt _ _ _ _) ?_
    intro j hj
    have h1 : (i + 1) * sz ≤ vs.length * sz := Nat.mul_le_mul_right sz hi
    rw [Nat.succ_mul] at h1
    have e0 : a + i * sz + j - a = j + i * sz := by omega
    have e1 : (j + i * sz) / sz = i := by rw [Nat.add_mul_div_right _ _ hsz, Nat.div_eq_of_lt hj, Nat.zero_add]
    have e2 : (j + i * sz) % sz = j := by rw [Nat.add_mul_mod_self_right, Nat.mod_eq_of_lt hj]
    rw [byteOf_addWstrbMask _ _ _ _ _ hj, byteOf_leVal _ _ _ hj]
    simp only [writeTo, e0, e1, e2, hm i hi]
    by_cases hb : (m i).testBit j = true
    · rw [if_pos hb, if_pos ⟨by omega, by omega, hb⟩]
    · rw [if_neg hb, if_neg (fun h => hb h.2.2)]

theorem words_take (sz n : Nat) (b : Bytes) : wordsOfBytes sz n (b.take (n * sz)) = wordsOfBytes sz n b := by
  unfold wordsOfBytes
  apply List.map_congr_left
  intro i hi
  have h1 : (i + 1) * sz ≤ n * sz := Nat.mul_le_mul_right sz (List.mem_range.1 hi)
  rw [Nat.succ_mul] at h1
  congr 1
  rw [List.drop_take, List.take_take]
  congr 1
  omega

theorem getLastD_lt (vs : List Nat) (n : Nat) (h : ∀ v ∈ vs, v < n) (hn : 0 < n) : vs.getLastD 0 < n := by
  cases hl : vs.getLast? with
  | none => simp [List.getLastD_eq_getLast?, hl, hn]
  | some v =>
    rw [List.getLastD_eq_getLast?, hl]
    exact h v (List.mem_of_getLast? hl)

theorem read_fixed (mem : Nat → Byte) (sz a n v : Nat) (hv : v < 256 ^ (sz - a % sz)) (h : ∀ j < sz - a % sz, byteOf v j = mem (a + j)) :
    (readFrom sz .fixed a n mem).mapM asInt = some (List.replicate n v) := by
  have e : List.replicate n v = (List.range n).map (fun _ => v) := by
    apply List.ext_getElem
    · rw [List.length_replicate, List.length_map, List.length_range]
    · intro m h1 h2; rw [List.getElem_replicate, List.getElem_map]
  rw [e]
  apply mapM_range
  intro i _
  exact word_is _ _ _ _ hv h

theorem same_reads (mem : Nat → Byte) (sz a : Nat) (hsz : 0 < sz) (ha : a % sz = 0) (burst : AxiBurst) (vs : List Nat) (hne : vs ≠ []) (hv : ∀ v ∈ vs, v < 256 ^ sz) :
    (readFrom sz burst a vs.length (writeTo sz burst a vs [none] mem)).mapM asInt =
      some (if burst = .fixed then List.replicate vs.length (vs.getLastD 0) else vs) := by
  have hpos : 0 < 256 ^ sz := Nat.pow_pos (by decide)
  have hvs : vs = (List.range vs.length).map (fun i => vs.getD i 0) := by
    apply List.ext_getElem
    · simp
    · intro n h1 h2; simp [h1]
  have hlt : ∀ i < vs.length, vs.getD i 0 < 256 ^ sz := by
    intro i hi
    rw [List.getD_eq_getElem?_getD, List.getElem?_eq_getElem hi]
    exact hv _ (List.getElem_mem hi)
  cases burst with
  | fixed =>
    rw [if_pos rfl]
    apply read_fixed
    · rw [ha]; exact getLastD_lt vs _ hv hpos
    · intro j hj
      rw [writeTo, storeValues_fixed, if_pos ⟨hne, by omega, by omega⟩, Nat.add_sub_cancel_left]
      all_goals exact fun h => by cases h
  | incr =>
    rw [if_neg (by decide)]
    conv => rhs; rw [hvs]
    apply mapM_range
    intro i hi
    have hk : (if i + 1 = vs.length then sz - a % sz else sz) = sz := by rw [ha]; split <;> rfl
    rw [hk]
    refine word_is _ _ _ _ (hlt i hi) ?_
    intro j hj
    have h1 : (i + 1) * sz ≤ vs.length * sz := Nat.mul_le_mul_right sz hi
    rw [Nat.succ_mul] at h1
    have e0 : a + i * sz + j - a = j + i * sz := by omega
    rw [write_incr, if_pos (by omega), e0, Nat.add_mul_div_right _ _ hsz, Nat.div_eq_of_lt hj, Nat.zero_add, Nat.add_mul_mod_self_right, Nat.mod_eq_of_lt hj]
  | wrap =>
    rw [if_neg (by decide)]
    conv => rhs; rw [hvs]
    apply mapM_range
    intro i hi
    have hal := fun k => wrap_beats sz a vs.length hsz ha k
    rw [hal i]
    refine word_is _ _ _ _ (hlt i hi) ?_
    intro j hj
    rw [Nat.sub_zero] at hj
    have := storeValues_at sz .wrap a vs.length (beatAddr sz .wrap a vs.length i + j) vs 0 i mem hi
      (by rw [Nat.zero_add, hal]; omega) (fun k' h1 h2 => by
        rw [Nat.zero_add, hal, Nat.sub_zero]
        exact wrap_apart sz a vs.length hsz ha i k' hi h2 (by omega) _ ⟨by omega, by omega⟩)
    rw [Nat.zero_add, Nat.add_sub_cancel_left] at this
    exact this.symm

theorem narrow_reads (mem : Nat → Byte) (half a : Nat) (hh : 0 < half) (ha : a % (2 * half) = 0) (vs : List Nat) (hv : ∀ v ∈ vs, v < 256 ^ half) :
    (readFrom (2 * half) .incr a (vs.length / 2) (writeTo half .incr a vs [none] mem)).mapM asInt =
      some ((List.range (vs.length / 2)).map fun i => vs.getD (2 * i + 1) 0 <<< (8 * half) ||| vs.getD (2 * i) 0) := by
  apply mapM_range
  intro i hi
  have hk : (if i + 1 = vs.length / 2 then 2 * half - a % (2 * half) else 2 * half) = 2 * half := by rw [ha]; split <;> rfl
  rw [hk]
  have hbit : ∀ k < vs.length, ∀ q, 8 * half ≤ q → (vs.getD k 0).testBit q = false := by
    intro k hk q hq
    apply Nat.testBit_lt_two_pow
    rw [List.getD_eq_getElem?_getD, List.getElem?_eq_getElem hk]
    refine Nat.lt_of_lt_of_le (hv _ (List.getElem_mem hk)) ?_
    rw [show (256 : Nat) = 2 ^ 8 by rfl, ← Nat.pow_mul]
    exact Nat.pow_le_pow_right (by decide) hq
  refine word_is _ _ _ _ ?_ ?_
  · apply lt_256
    intro q hq
    rw [Nat.testBit_or, Nat.testBit_shiftLeft, hbit (2 * i) (by omega) q (by omega), hbit (2 * i + 1) (by omega) (q - 8 * half) (by omega)]
    simp
  · intro j hj
    have ham : a % half = 0 := by
      have : half ∣ a := Nat.dvd_trans (Nat.dvd_mul_left half 2) (Nat.dvd_of_mod_eq_zero ha)
      exact Nat.mod_eq_zero_of_dvd this
    have h1 : (2 * i + 1 + 1) * half ≤ vs.length * half := Nat.mul_le_mul_right half (by omega)
    have h2 : (2 * i + 1 + 1) * half = 2 * i * half + half + half := by rw [Nat.succ_mul, Nat.succ_mul]
    have h3 : i * (2 * half) = 2 * i * half := by rw [← Nat.mul_assoc, Nat.mul_comm i 2]
    rw [write_incr, if_pos (by omega)]
    by_cases hj2 : j < half
    · have e : a + i * (2 * half) + j - a = j + 2 * i * half := by omega
      rw [e, Nat.add_mul_div_right _ _ hh, Nat.div_eq_of_lt hj2, Nat.zero_add, Nat.add_mul_mod_self_right, Nat.mod_eq_of_lt hj2]
      apply byte_eq
      intro q hq
      rw [Nat.testBit_or, Nat.testBit_shiftLeft, decide_eq_false (by omega)]
      simp
    · have e : a + i * (2 * half) + j - a = (j - half) + (2 * i + 1) * half := by rw [h3, Nat.succ_mul (2 * i) half]; omega
      rw [e, Nat.add_mul_div_right _ _ hh, Nat.div_eq_of_lt (by omega), Nat.zero_add, Nat.add_mul_mod_self_right, Nat.mod_eq_of_lt (by omega)]
      apply byte_eq
      intro q hq
      rw [Nat.testBit_or, Nat.testBit_shiftLeft, decide_eq_true (by omega), hbit (2 * i) (by omega) _ (by omega), show 8 * j + q - 8 * half = 8 * (j - half) + q by omega]
      simp

theorem shift_mod (sz a shift : Nat) (ha : a % sz = 0) (hs : shift < sz) : (a + shift) % sz = shift := by
  rw [Nat.add_mod, ha, Nat.zero_add, Nat.mod_mod, Nat.mod_eq_of_lt hs]

theorem readUnaligned_incr (mem : Nat → Byte) (sz a shift : Nat) (ha : a % sz = 0) (hs : shift < sz) (vs : List Nat) :
    (readFrom sz .incr (a + shift) vs.length (writeTo sz .incr a vs [none] mem)).mapM asInt =
      some (wordsOfBytes sz vs.length ((bytesOfWords sz vs).drop shift)) := by
  have hsz : 0 < sz := by omega
  apply read_bytes _ _ _ _ _ hsz
  · rw [List.length_drop, bytesOfWords_length, shift_mod sz a shift ha hs, Nat.mul_comm]
  · intro j hj
    rw [List.length_drop, bytesOfWords_length, Nat.mul_comm] at hj
    have := write_holding mem sz a hsz vs (shift + j) (by rw [ha, List.length_take, bytesOfWords_length, Nat.mul_comm sz]; omega)
    rw [Nat.add_assoc, this, ha, List.take_of_length_le (by rw [bytesOfWords_length, Nat.mul_comm sz]; omega)]
    rw [List.getD_eq_getElem?_getD, List.getD_eq_getElem?_getD, List.getElem?_drop]

theorem readUnaligned_fixed (mem : Nat → Byte) (sz a shift : Nat) (ha : a % sz = 0) (hs : shift < sz) (vs : List Nat) (hne : vs ≠ []) :
    (readFrom sz .fixed (a + shift) vs.length (writeTo sz .fixed a vs [none] mem)).mapM asInt =
      some (List.replicate vs.length ((vs.getLastD 0 >>> (shift * 8)) &&& (2 ^ ((sz - shift) * 8) - 1))) := by
  have hm := shift_mod sz a shift ha hs
  apply read_fixed
  · rw [hm]
    apply lt_256
    intro q hq
    rw [Nat.testBit_and, Nat.testBit_two_pow_sub_one, decide_eq_false (by omega), Bool.and_false]
  · intro j hj
    rw [hm] at hj
    rw [writeTo, storeValues_fixed, if_pos ⟨hne, by omega, by omega⟩]
    · apply byte_eq
      intro q hq
      rw [Nat.testBit_and, Nat.testBit_two_pow_sub_one, decide_eq_true (by omega), Bool.and_true, Nat.testBit_shiftRight]
      congr 1
      omega
    all_goals exact fun h => by cases h

theorem writeUnaligned_incr (mem : Nat → Byte) (sz a shift first : Nat) (ha : a % sz = 0) (hs : shift < sz) (vs : List Nat) (hne : vs ≠ []) :
    (readFrom sz .incr a vs.length (writeTo sz .incr (a + shift) vs [none] (writeTo sz .incr a [first] [none] mem))).mapM asInt =
      some (wordsOfBytes sz vs.length (natToBytesLE shift (first &&& (2 ^ (shift * 8) - 1)) ++ bytesOfWords sz vs)) := by
  have hsz : 0 < sz := by omega
  have hm := shift_mod sz a shift ha hs
  have hlen : sz ≤ vs.length * sz := Nat.le_mul_of_pos_left sz (List.length_pos_iff.2 hne)
  rw [← words_take]
  apply read_bytes _ _ _ _ _ hsz
  · rw [List.length_take, List.length_append, bytesOfWords_length, natToBytesLE_length, ha, Nat.mul_comm sz]
    omega
  · intro j hj
    rw [List.length_take, List.length_append, bytesOfWords_length, natToBytesLE_length, Nat.mul_comm sz] at hj
    have hj2 : j < vs.length * sz := by omega
    rw [List.getD_eq_getElem?_getD, List.getElem?_take_of_lt hj2]
    by_cases hjs : j < shift
    · rw [List.getElem?_append_left (by rw [natToBytesLE_length]; exact hjs), natToBytesLE_getElem? _ _ _ hjs, write_incr, if_neg (by omega), write_incr,
        if_pos (by rw [ha, List.length_singleton]; omega), Nat.add_sub_cancel_left, Nat.div_eq_of_lt (by omega), Nat.mod_eq_of_lt (by omega)]
      apply byte_eq
      intro q hq
      rw [Nat.testBit_and, Nat.testBit_two_pow_sub_one, decide_eq_true (by omega), Bool.and_true]
      rfl
    · rw [List.getElem?_append_right (by rw [natToBytesLE_length]; omega), natToBytesLE_length, bytesOfWords_getElem? sz hsz vs _ (by rw [Nat.mul_comm sz]; omega),
        write_incr, hm, if_pos (by omega), show a + j - (a + shift) = j - shift by omega]
      rfl

theorem writeUnaligned_fixed (mem : Nat → Byte) (sz a shift first : Nat) (ha : a % sz = 0) (hs : shift < sz) (vs : List Nat) (hne : vs ≠ []) :
    (readFrom sz .fixed a vs.length (writeTo sz .fixed (a + shift) vs [none] (writeTo sz .fixed a [first] [none] mem))).mapM asInt =
      some (List.replicate vs.length
        (first &&& (2 ^ (shift * 8) - 1) ||| (vs.getLastD 0 <<< (shift * 8)) &&& ((2 ^ ((sz - shift) * 8) - 1) <<< (shift * 8)))) := by
  have hm := shift_mod sz a shift ha hs
  apply read_fixed
  · rw [ha]
    apply lt_256
    intro q hq
    rw [Nat.testBit_or, Nat.testBit_and, Nat.testBit_and, Nat.testBit_two_pow_sub_one, Nat.testBit_shiftLeft (2 ^ _ - 1), Nat.testBit_two_pow_sub_one,
      decide_eq_false (p := q < shift * 8) (by omega), decide_eq_false (p := q - shift * 8 < _) (by omega)]
    simp
  · intro j hj
    rw [ha] at hj
    have hw1 : ∀ (x : Nat) (l : List Nat) (mem : Nat → Byte), l ≠ [] → ∀ b, writeTo sz .fixed x l [none] mem b =
        if x ≤ b ∧ b < x + sz - x % sz then byteOf (l.getLastD 0) (b - x) else mem b := by
      intro x l mem hl b
      rw [writeTo, storeValues_fixed]
      · simp [hl]
      all_goals exact fun h => by cases h
    rw [hw1 _ _ _ hne, hm]
    by_cases hjs : j < shift
    · rw [if_neg (by omega), hw1 _ _ _ (by simp), if_pos (by omega), Nat.add_sub_cancel_left]
      apply byte_eq
      intro q hq
      rw [Nat.testBit_or, Nat.testBit_and, Nat.testBit_and, Nat.testBit_two_pow_sub_one, Nat.testBit_shiftLeft, decide_eq_true (p := 8 * j + q < shift * 8) (by omega),
        decide_eq_false (p := 8 * j + q ≥ shift * 8) (by omega)]
      simp
    · rw [if_pos (by omega)]
      apply byte_eq
      intro q hq
      rw [Nat.testBit_or, Nat.testBit_and, Nat.testBit_and, Nat.testBit_two_pow_sub_one, Nat.testBit_shiftLeft, Nat.testBit_shiftLeft (2 ^ _ - 1), Nat.testBit_two_pow_sub_one,
        decide_eq_false (p := 8 * j + q < shift * 8) (by omega), decide_eq_true (p := 8 * j + q ≥ shift * 8) (by omega),
        decide_eq_true (p := 8 * j + q - shift * 8 < _) (by omega), show 8 * j + q - shift * 8 = 8 * (a + j - (a + shift)) + q by omega]
      simp

/-! ### the tests -/

theorem passes_of (c : AxCfg) (t : AxTest) (reads : List (List LogicArray)) (previous : List Nat) (h1 : reads.head?.bind (·.mapM asInt) = some previous)
    (h2 : reads.getLast?.bind (·.mapM asInt) = some (t.expected c previous)) : AxTest.Passes c t (reads.map .ok) := by
  refine ⟨?_, previous, ?_, ?_⟩
  · intro x hx
    obtain ⟨l, -, rfl⟩ := List.mem_map.1 hx
    exact ⟨l, rfl⟩
  · rw [List.head?_map, Option.bind_map]
    exact h1
  · rw [List.getLast?_map, Option.bind_map]
    exact h2

theorem tests_pass (c : AxCfg) (hc : Standard c) (t : AxTest) (hops : ∀ op ∈ t.ops c, AxOpOk c op) (hd : AxTest.Drawn c t) (mem : Nat → Byte) :
    AxTest.Passes c t ((axReads c (t.ops c) mem).map .ok) := by
  have hlen : ∀ (vs : List Nat) (burst : AxiBurst), LengthOk burst vs.length → vs ≠ [] := by
    intro vs burst h e
    subst e
    cases burst <;> simp [LengthOk] at h
  cases t with
  | single a v strb al dl =>
    have hsz : 0 < c.dataBytes := by
      obtain ⟨⟨j, -, hW⟩, -⟩ := hc
      rw [hW]; exact Nat.two_pow_pos j
    obtain ⟨P, h1, h2⟩ := incr_reads mem c.dataBytes a hsz hd [v] [some strb] (fun _ => strb) (by
      intro i hi j
      obtain rfl : i = 0 := by simpa using hi
      rfl)
    apply passes_of (previous := [P 0])
    · cases hf : c.full <;> (simp only [AxTest.ops, hf]; exact h1)
    · cases hf : c.full <;> (simp only [AxTest.ops, hf]; exact h2)
  | incr a vs strbs size =>
    obtain ⟨ha, hl, hs⟩ := hd
    have hw := hops (.write a vs size .incr (strbs.map some) 0 0 true) (by simp [AxTest.ops])
    have hsz := legal_pos c hc _ _ _ _ hw.2.2.2.2.1
    obtain ⟨P, h1, h2⟩ := incr_reads mem _ a hsz ha vs (strbs.map some) (fun i => (strbs ++ [strbs.getLastD 0]).getD i 0) (by
      intro i hi j
      unfold axiEnabled
      by_cases h : i < strbs.length
      · have e : (strbs ++ [strbs.getLastD 0])[i]? = strbs[i]? := List.getElem?_append_left h
        simp only [List.getD_eq_getElem?_getD, e]
        simp [h]
      · obtain rfl : i = strbs.length := by omega
        cases hg : strbs.getLast? with
        | none => exact absurd (List.getLast?_eq_none_iff.1 hg) hs
        | some m => simp [hg, List.getLastD_eq_getLast?])
    apply passes_of (previous := (List.range vs.length).map P)
    · exact h1
    · refine h2.trans ?_
      congr 1
      apply List.ext_getElem
      · simp [AxTest.expected, hl]
      · intro n g1 g2
        have hn : n < vs.length := by simpa using g1
        have hn2 : n < (strbs ++ [strbs.getLastD 0]).length := by simp; omega
        simp only [AxTest.expected, List.getElem_map, List.getElem_range, List.getElem_zipWith, List.getElem_zip]
        rw [List.getD_eq_getElem?_getD, List.getElem?_eq_getElem hn, List.getD_eq_getElem?_getD, List.getElem?_eq_getElem hn2]
        rfl
  | sameBurst burst a vs size =>
    obtain ⟨ha, hv⟩ := hd
    have hw := hops (.write a vs size burst [none] 0 0 true) (by simp [AxTest.ops])
    have hsz := legal_pos c hc _ _ _ _ hw.2.2.2.2.1
    exact passes_of c _ _ [] rfl (same_reads mem _ a hsz ha burst vs (hlen vs burst hw.2.2.2.2.1.2.1) hv)
  | narrow a vs half =>
    obtain ⟨ha, hW, rfl, -, hv⟩ := hd
    refine passes_of c _ _ [] rfl ?_
    rw [hW] at ha
    refine Eq.trans ?_ (narrow_reads mem 2 a (by decide) ha vs hv)
    rw [show 2 * 2 = c.dataBytes from hW.symm]
    rfl
  | readUnaligned burst a shift vs size =>
    obtain ⟨hb, ha, hs⟩ := hd
    have hw := hops (.write a vs size burst [none] 0 0 true) (by simp [AxTest.ops])
    refine passes_of c _ _ [] rfl ?_
    cases burst with
    | wrap => exact absurd rfl hb
    | incr => exact readUnaligned_incr mem _ a shift ha hs vs
    | fixed => exact readUnaligned_fixed mem _ a shift ha hs vs (hlen vs _ hw.2.2.2.2.1.2.1)
  | writeUnaligned burst a shift first vs size =>
    obtain ⟨hb, ha, hs⟩ := hd
    have hw := hops (.write (a + shift) vs size burst [none] 0 0 true) (by simp [AxTest.ops])
    have hne := hlen vs _ hw.2.2.2.2.1.2.1
    refine passes_of c _ _ [] rfl ?_
    cases burst with
    | wrap => exact absurd rfl hb
    | incr => exact writeUnaligned_incr mem _ a shift first ha hs vs hne
    | fixed => exact writeUnaligned_fixed mem _ a shift first ha hs vs hne

/-! ### the calls are legal -/

theorem onePage_fits (k a shift len : Nat) (hk : k ≤ 12) (hs : shift < 2 ^ k) (hlen : 0 < len) (h : a % 4096 + len * 2 ^ k ≤ 4096) : OnePage (2 ^ k) .incr (a + shift) len := by
  obtain ⟨q, hq⟩ := dvd_4096 k 12 (Nat.pow_le_pow_right (by decide) hk) (Nat.le_refl _)
  have hx := axiCheck4k_incr (a + shift) (2 ^ k) len q (Nat.two_pow_pos k) hq hlen
  refine Classical.byContradiction fun hn => ?_
  have h2 := hx.2 hn
  obtain ⟨m, rfl⟩ : ∃ m, len = m + 1 := ⟨len - 1, by omega⟩
  rw [Nat.succ_mul] at h
  have : page4k (a + shift) = page4k (a + shift + 2 ^ k * (m + 1 - 1)) := by
    rw [Nat.add_sub_cancel, Nat.mul_comm]
    unfold page4k
    omega
  rw [axiCheck4k, if_neg (fun h => h this)] at h2
  cases h2

theorem beatSize_pow (c : AxCfg) (hc : Standard c) (size : Option Int) (h : BeatSize c.dataBytes size (testSize c size)) : ∃ k, k ≤ 12 ∧ testSize c size = 2 ^ k := by
  obtain ⟨⟨j, hj, hW⟩, -⟩ := hc
  cases size with
  | none => exact ⟨j, by omega, hW⟩
  | some s =>
    obtain ⟨⟨k, h1, h2⟩, h3⟩ := (h : SizeOk c.dataBytes s ∧ s = testSize c (some s))
    refine ⟨k, ?_, ?_⟩
    · rw [hW] at h2
      have := (Nat.pow_le_pow_iff_right (a := 2) (by decide)).1 h2
      omega
    · have h2 : s = ((2 ^ k : Nat) : Int) := by rw [h1]; norm_cast
      rw [h2]
      rfl

theorem tests_legal (c : AxCfg) (hc : Standard c) (t : AxTest) (hd : AxTest.Drawn c t) (hr : AxTest.InRange c t) : ∀ op ∈ t.ops c, AxOpOk c op := by
  have wok : ∀ sz a len, WrapOk c sz .incr a len := fun _ _ _ h => by cases h
  cases t with
  | single a v strb al dl =>
    simp only [AxTest.ops]
    cases hf : c.full with
    | false =>
      simp only [Bool.false_eq_true, if_false, List.forall_mem_cons]
      exact ⟨⟨hf, hr⟩, ⟨hf, hr⟩, ⟨hf, hr⟩, fun _ h => by cases h⟩
    | true =>
      simp only [if_true, List.forall_mem_cons]
      have hl := legal_single c hc a
      exact ⟨⟨hf, hr, hl, wok _ _ _⟩, ⟨hf, hr, by simp, .inr rfl, hl, wok _ _ _⟩, ⟨hf, hr, hl, wok _ _ _⟩, fun _ h => by cases h⟩
  | incr a vs strbs size =>
    obtain ⟨hf, hb, h1, h2, h3, h4⟩ := hr
    obtain ⟨k, hk, he⟩ := beatSize_pow c hc size hb
    have hl : Legal c a vs.length size .incr (bytesPerBeat c size) := by
      refine ⟨hb, ⟨by omega, by omega⟩, fun _ => ?_⟩
      rw [he] at h3
      show OnePage (testSize c size) _ _ _
      rw [he, Int.toNat_natCast]
      exact onePage_fits k a 0 vs.length hk (Nat.two_pow_pos k) h1 h3
    have hs : strbs.map some ≠ [] := by simpa using hd.2.2
    simp only [AxTest.ops, List.forall_mem_cons]
    exact ⟨⟨hf, h4, hl, wok _ _ _⟩, ⟨hf, h4, hs, .inl rfl, hl, wok _ _ _⟩, ⟨hf, h4, hl, wok _ _ _⟩, fun _ h => by cases h⟩
  | sameBurst burst a vs size =>
    obtain ⟨hf, hb, h1, h2, h3, h4⟩ := hr
    obtain ⟨k, hk, he⟩ := beatSize_pow c hc size hb
    have hl : Legal c a vs.length size burst (bytesPerBeat c size) := by
      refine ⟨hb, h1, fun hi => ?_⟩
      subst hi
      have h2 := h2 rfl
      rw [he] at h2
      show OnePage (testSize c size) _ _ _
      rw [he, Int.toNat_natCast]
      have h5 : 0 < vs.length := by
        have : (1 : Int) ≤ vs.length := h1.1
        omega
      exact onePage_fits k a 0 vs.length hk (Nat.two_pow_pos k) h5 h2
    have hw : WrapOk c (bytesPerBeat c size) burst a vs.length := fun hb => ⟨hd.1, .inl (h3 hb)⟩
    simp only [AxTest.ops, List.forall_mem_cons]
    exact ⟨⟨hf, h4, by decide, .inl rfl, hl, hw⟩, ⟨hf, h4, hl, hw⟩, fun _ h => by cases h⟩
  | narrow a vs half =>
    obtain ⟨ha, hW, rfl, -, -⟩ := hd
    obtain ⟨hf, h1, h2, h3, h4⟩ := hr
    have hl : Legal c a vs.length (some (2 : Nat)) .incr (bytesPerBeat c (some (2 : Nat))) := by
      refine ⟨⟨⟨1, rfl, by rw [hW]; decide⟩, rfl⟩, ⟨by omega, by omega⟩, fun _ => ?_⟩
      rw [Int.toNat_natCast]
      exact onePage_fits 1 a 0 vs.length (by decide) (by decide) (by omega) h3
    have hl2 : Legal c a (vs.length / 2 : Nat) none .incr (bytesPerBeat c none) := by
      refine ⟨rfl, ⟨by omega, by omega⟩, fun _ => ?_⟩
      rw [Int.toNat_natCast, show bytesPerBeat c none = 2 ^ 2 from hW]
      exact onePage_fits 2 a 0 (vs.length / 2) (by decide) (by decide) (by omega) (by omega)
    simp only [AxTest.ops, List.forall_mem_cons]
    exact ⟨⟨hf, h4, by decide, .inl rfl, hl, wok _ _ _⟩, ⟨hf, h4, hl2, wok _ _ _⟩, fun _ h => by cases h⟩
  | readUnaligned burst a shift vs size =>
    obtain ⟨hf, hb, h1, h2, h4⟩ := hr
    obtain ⟨hnw, ha, hs⟩ := hd
    obtain ⟨k, hk, he⟩ := beatSize_pow c hc size hb
    have hl : ∀ x, x < 2 ^ k → Legal c (a + x) vs.length size burst (bytesPerBeat c size) := by
      intro x hx
      refine ⟨hb, h1, fun hi => ?_⟩
      subst hi
      have h2 := h2 rfl
      rw [he] at h2
      show OnePage (testSize c size) _ _ _
      rw [he, Int.toNat_natCast]
      have h5 : 0 < vs.length := by
        have : (1 : Int) ≤ vs.length := h1.1
        omega
      exact onePage_fits k a x vs.length hk hx h5 h2
    have hw : ∀ x l, WrapOk c (bytesPerBeat c size) burst x l := fun _ _ hb => absurd hb hnw
    simp only [AxTest.ops, List.forall_mem_cons]
    rw [he] at hs
    exact ⟨⟨hf, by omega, by decide, .inl rfl, hl 0 (Nat.two_pow_pos k), hw _ _⟩, ⟨hf, h4, hl shift hs, hw _ _⟩, fun _ h => by cases h⟩
  | writeUnaligned burst a shift first vs size =>
    obtain ⟨hf, hb, h1, h2, h4⟩ := hr
    obtain ⟨hnw, ha, hs⟩ := hd
    obtain ⟨k, hk, he⟩ := beatSize_pow c hc size hb
    have hlen : 0 < vs.length := by
      cases burst with
      | wrap => exact absurd rfl hnw
      | incr => have : (1 : Int) ≤ vs.length := h1.1; omega
      | fixed => have : (1 : Int) ≤ vs.length := h1.1; omega
    have hl : ∀ x, x < 2 ^ k → ∀ n : Nat, LengthOk burst n → 0 < n → n ≤ vs.length → Legal c (a + x) n size burst (bytesPerBeat c size) := by
      intro x hx n hn hn0 hle
      refine ⟨hb, hn, fun hi => ?_⟩
      subst hi
      have h2 := h2 rfl
      rw [he] at h2
      show OnePage (testSize c size) _ _ _
      rw [he, Int.toNat_natCast]
      have h5 : n * 2 ^ k ≤ vs.length * 2 ^ k := Nat.mul_le_mul_right _ hle
      exact onePage_fits k a x n hk hx hn0 (by omega)
    have hone : LengthOk burst ((1 : Nat) : Int) := by cases burst <;> simp [LengthOk]
    have hw : ∀ x l, WrapOk c (bytesPerBeat c size) burst x l := fun _ _ hb => absurd hb hnw
    simp only [AxTest.ops, List.forall_mem_cons]
    rw [he] at hs
    exact ⟨⟨hf, by omega, by decide, .inl rfl, hl 0 (Nat.two_pow_pos k) 1 hone (by decide) hlen, hw _ _⟩,
      ⟨hf, h4, by decide, .inl rfl, hl shift hs _ h1 hlen (Nat.le_refl _), hw _ _⟩, ⟨hf, by omega, hl 0 (Nat.two_pow_pos k) _ h1 hlen (Nat.le_refl _), hw _ _⟩,
      fun _ h => by cases h⟩

end CocotbBus
