import Verif.Proof.Axi

/-!
# AXI4 master: assembling the words read
-/

namespace CocotbBus
open Spec

/-! ### Lists of blocks -/

theorem flatMap_range_length {α : Type} (F : Nat → List α) (c : Nat) (n : Nat) (h : ∀ t < n, (F t).length = c) :
    ((List.range n).flatMap F).length = c * n := by
  induction n with
  | zero => rfl
  | succ n ih =>
    rw [List.range_succ, List.flatMap_append, List.length_append, ih (fun t ht => h t (by omega))]
    simp [h n (by omega), Nat.mul_succ]

theorem flatMap_range_add {α : Type} (F : Nat → List α) (n k : Nat) :
    (List.range (n + k)).flatMap F = (List.range n).flatMap F ++ (List.range k).flatMap (fun t => F (n + t)) := by
  rw [List.range_add, List.flatMap_append, List.flatMap_map]

theorem flatMap_range_drop {α : Type} (F : Nat → List α) (c n k : Nat) (h : ∀ t < n, (F t).length = c) (hk : k ≤ n) :
    ((List.range n).flatMap F).drop (c * k) = (List.range (n - k)).flatMap (fun t => F (k + t)) := by
  conv_lhs => rw [show n = k + (n - k) by omega, flatMap_range_add]
  rw [← flatMap_range_length F c k (fun t ht => h t (by omega)), List.drop_left]

theorem flatMap_range_take {α : Type} (F : Nat → List α) (c n k : Nat) (h : ∀ t < n, (F t).length = c) :
    ((List.range n).flatMap F).take (c * k) = (List.range (min k n)).flatMap F := by
  by_cases hk : k ≤ n
  · rw [Nat.min_eq_left hk]
    conv_lhs => rw [show n = k + (n - k) by omega, flatMap_range_add]
    rw [← flatMap_range_length F c k (fun t ht => h t (by omega)), List.take_left]
  · rw [Nat.min_eq_right (by omega)]
    apply List.take_of_length_le
    rw [flatMap_range_length F c n h]
    exact Nat.mul_le_mul_left _ (by omega)

theorem flatMap_congr_range {α : Type} (F G : Nat → List α) (n : Nat) (h : ∀ t < n, F t = G t) :
    (List.range n).flatMap F = (List.range n).flatMap G := by
  rw [List.flatMap_def, List.flatMap_def]
  congr 1
  apply List.map_congr_left
  intro t ht
  exact h t (List.mem_range.1 ht)

theorem flatMap_flatMap_range {α : Type} (F : Nat → Nat → List α) (k : Nat) (hk : 0 < k) (n : Nat) :
    (List.range n).flatMap (fun i => (List.range k).flatMap (F i)) = (List.range (n * k)).flatMap (fun t => F (t / k) (t % k)) := by
  induction n with
  | zero => simp
  | succ n ih =>
    rw [List.range_succ, List.flatMap_append, ih, Nat.succ_mul, flatMap_range_add]
    congr 1
    simp only [List.flatMap_cons, List.flatMap_nil, List.append_nil]
    apply flatMap_congr_range
    intro t ht
    rw [Nat.add_comm, Nat.add_mul_div_right _ _ hk, Nat.div_eq_of_lt ht, Nat.zero_add, Nat.add_mul_mod_self_right, Nat.mod_eq_of_lt ht]

theorem reverse_flatMap_range {α : Type} (F : Nat → List α) (n : Nat) :
    ((List.range n).reverse.flatMap F).reverse = (List.range n).flatMap (fun t => (F t).reverse) := by
  rw [List.reverse_flatMap, List.reverse_reverse]
  rfl

theorem memWord_reverse (mem : Nat → LogicArray) (a k : Nat) : (memWord mem a k).reverse = (List.range k).flatMap (fun t => (mem (a + t)).reverse) :=
  reverse_flatMap_range _ _

/-! ### Slices -/

theorem slice_reverse (v : LogicArray) (s k d : Nat) (h : s + k + d = v.length) : ((v.drop s).take k).reverse = (v.reverse.drop d).take k := by
  rw [List.drop_reverse, List.take_reverse, List.length_take]
  rw [show min (v.length - d) v.length - k = s by omega, List.drop_take]
  congr 2
  omega

theorem lane_reverse (v : LogicArray) (l : Nat) (h : 8 * (l + 1) ≤ v.length) : (lane v l).reverse = (v.reverse.drop (8 * l)).take 8 :=
  slice_reverse _ _ _ _ (by omega)

theorem lane_length (v : LogicArray) (l : Nat) (h : 8 * (l + 1) ≤ v.length) : (lane v l).length = 8 := by
  unfold lane
  simp
  omega

theorem lanes_reverse (v : LogicArray) (off : Nat) : ∀ n, 8 * (off + n) ≤ v.length →
    (List.range n).flatMap (fun t => (lane v (off + t)).reverse) = (v.reverse.drop (8 * off)).take (8 * n) := by
  intro n
  induction n with
  | zero => intro _; simp
  | succ n ih =>
    intro h
    rw [List.range_succ, List.flatMap_append, ih (by omega), Nat.mul_succ, List.take_add]
    congr 1
    simp only [List.flatMap_cons, List.flatMap_nil, List.append_nil, List.drop_drop]
    rw [lane_reverse v _ (by omega), Nat.mul_add]

theorem shiftAndMask_eq (v : LogicArray) (size off : Nat) (hs : 0 < size) (h : 8 * (size + off) ≤ v.length) :
    shiftAndMask v size off = .ok (memWord (lane v) off size) := by
  unfold shiftAndMask
  rw [if_neg (by omega), binarySlice, if_pos (by omega), if_pos (by omega)]
  congr 1
  rw [← List.reverse_inj, memWord_reverse, lanes_reverse v off size (by omega), slice_reverse _ _ _ (8 * off) (by omega)]
  congr 1
  omega

/-- what the code takes from beat `n` (of whose bus word `c` is the block of `size` bytes) -/
theorem axiSlices_get (size m : Nat) (hs : 0 < size) (hm : 0 < m) (burst : AxiBurst) (hb : burst ≠ .fixed) (l : List LogicArray)
    (hl : ∀ v ∈ l, v.length = 8 * (size * m)) : ∀ x, ∃ ws, axiSlices (size * m) size burst (x % m * size) l = .ok ws ∧
      ws.length = l.length ∧ ∀ (n : Nat) v, l[n]? = some v → ws[n]? = some (memWord (lane v) ((x + n) % m * size) size) := by
  induction l with
  | nil => intro x; exact ⟨[], rfl, rfl, by intro n v h; simp at h⟩
  | cons v r ih =>
    intro x
    obtain ⟨ws, h1, h2, h3⟩ := ih (fun w hw => hl w (List.mem_cons_of_mem _ hw)) (x + 1)
    have hv := hl v List.mem_cons_self
    have hx : x % m < m := Nat.mod_lt _ hm
    have hle : x % m * size + size ≤ size * m := by
      have : (x % m + 1) * size ≤ m * size := Nat.mul_le_mul_right _ hx
      rw [Nat.add_mul, Nat.one_mul] at this
      rw [Nat.mul_comm size m]; exact this
    refine ⟨memWord (lane v) (x % m * size) size :: ws, ?_, by simp [h2], ?_⟩
    · rw [axiSlices, shiftAndMask_eq v size _ hs (by omega)]
      have : axiNextOffset (size * m) size burst (x % m * size) = (x + 1) % m * size := by
        unfold axiNextOffset
        rw [if_neg hb]
        rw [show x % m * size + size = size * (x % m + 1) by rw [Nat.mul_add, Nat.mul_comm, Nat.mul_one], Nat.mul_mod_mul_left, Nat.mod_add_mod, Nat.mul_comm]
      rw [this, h1]
      rfl
    · intro n w hw
      cases n with
      | zero => simp at hw; subst hw; simp
      | succ n =>
        rw [List.getElem?_cons_succ] at hw ⊢
        rw [h3 n w hw, show x + 1 + n = x + (n + 1) by omega]

theorem axiSlices_fixed (size m : Nat) (hs : 0 < size) (c : Nat) (hc : c < m) (l : List LogicArray)
    (hl : ∀ v ∈ l, v.length = 8 * (size * m)) : axiSlices (size * m) size .fixed (c * size) l = .ok (l.map (fun v => memWord (lane v) (c * size) size)) := by
  have hle : c * size + size ≤ size * m := by
    have : (c + 1) * size ≤ m * size := Nat.mul_le_mul_right _ hc
    rw [Nat.add_mul, Nat.one_mul] at this
    rw [Nat.mul_comm size m]; exact this
  induction l with
  | nil => rfl
  | cons v r ih =>
    have hv := hl v List.mem_cons_self
    rw [axiSlices, shiftAndMask_eq v size _ hs (by omega), axiNextOffset, if_pos rfl, ih (fun w hw => hl w (List.mem_cons_of_mem _ hw))]
    rfl

/-- bytes of one beat and the lanes of the bus -/
theorem lane_index (size m a j : Nat) (hs : 0 < size) (hj : j < size) : (alignedAddr size a + j) % (size * m) = a / size % m * size + j := by
  unfold alignedAddr
  have h1 : (a / size * size + j) / size = a / size := by
    rw [Nat.add_comm, Nat.add_mul_div_right _ _ hs, Nat.div_eq_of_lt hj, Nat.zero_add]
  have h2 : (a / size * size + j) % size = j := by rw [Nat.add_comm, Nat.add_mul_mod_self_right, Nat.mod_eq_of_lt hj]
  have h3 := div_mod_block size m (a / size * size + j)
  have h4 := Nat.mod_mul_right_mod (a / size * size + j) size m
  have h5 := Nat.div_add_mod ((a / size * size + j) % (size * m)) size
  rw [h3, h4, h1, h2, Nat.mul_comm] at h5
  exact h5.symm

theorem axiWord_ok (v : LogicArray) : axiWord v = .ok v := by
  unfold axiWord createBinaryStr
  by_cases h : v.length = 1
  · rw [if_pos h]
    match v, h with
    | [l], _ => rfl
  · rw [if_neg h, if_pos rfl]; rfl

theorem mapM_ok {α β : Type} (f : α → β) (g : α → Except PyErr β) (l : List α) (h : ∀ x ∈ l, g x = .ok (f x)) : l.mapM g = .ok (l.map f) := by
  induction l with
  | nil => rfl
  | cons x r ih =>
    rw [List.mapM_cons, h x List.mem_cons_self, ih (fun y hy => h y (List.mem_cons_of_mem _ hy))]
    rfl

/-- re-alignment of the words of consecutive blocks -/
theorem axiRealign_eq (size sh len : Nat) (hs : 0 < size) (hsh : sh < size) (G : Nat → LogicArray) (hG : ∀ t < len * size, (G t).length = 8)
    (data : List LogicArray) (hd : data = (List.range len).map (fun n => memWord (fun j => G (n * size + j)) 0 size)) :
    axiRealign data (size * 8) (sh * 8) = .ok ((List.range len).map (fun i => memWord (fun j => G (sh + i * size + j)) 0 (if i + 1 = len then size - sh else size))) := by
  have hGl : ∀ t < len * size, (G t).reverse.length = 8 := by
    intro t ht
    rw [List.length_reverse]
    exact hG t ht
  unfold axiRealign
  have hlen : data.length = len := by rw [hd]; simp
  have hj : data.flatMap List.reverse = (List.range (len * size)).flatMap (fun t => (G t).reverse) := by
    rw [hd, List.flatMap_map]
    have : (fun n => (memWord (fun j => G (n * size + j)) 0 size).reverse) = fun n => (List.range size).flatMap (fun t => (G (n * size + t)).reverse) := by
      funext n
      rw [memWord_reverse]
      simp only [Nat.zero_add]
    rw [this, flatMap_flatMap_range (fun n t => (G (n * size + t)).reverse) size hs]
    congr 1
    funext t
    rw [Nat.mul_comm, Nat.div_add_mod]
  simp only [hlen, hj]
  rw [Nat.mul_comm sh 8]
  rcases Nat.eq_zero_or_pos len with h0 | hpos
  · subst h0; rfl
  have hls : sh ≤ len * size := by
    have : 1 * size ≤ len * size := Nat.mul_le_mul_right _ hpos
    omega
  rw [flatMap_range_drop _ 8 _ _ hGl hls]
  apply mapM_ok
  intro i hi
  rw [List.mem_range] at hi
  rw [axiWord_ok]
  congr 1
  rw [← List.reverse_inj, List.reverse_reverse, memWord_reverse]
  unfold pySlice
  rw [show (i + 1) * (size * 8) = 8 * ((i + 1) * size) by rw [← Nat.mul_assoc, Nat.mul_comm],
    show i * (size * 8) = 8 * (i * size) by rw [← Nat.mul_assoc, Nat.mul_comm]]
  have hlast : (i + 1) * size ≤ len * size := Nat.mul_le_mul_right _ hi
  rw [Nat.add_mul, Nat.one_mul] at hlast ⊢
  rw [flatMap_range_take _ 8 _ _ (by intro t ht; exact hGl _ (by omega)), flatMap_range_drop _ 8 _ _ (by intro t ht; exact hGl _ (by omega)) (by omega)]
  have hk : min (i * size + size) (len * size - sh) - i * size = if i + 1 = len then size - sh else size := by
    by_cases h : i + 1 = len
    · rw [if_pos h, ← h, Nat.add_mul, Nat.one_mul]
      omega
    · rw [if_neg h]
      have : (i + 1 + 1) * size ≤ len * size := Nat.mul_le_mul_right _ (by omega)
      rw [Nat.add_mul, Nat.add_mul, Nat.one_mul] at this
      omega
  rw [hk]
  apply flatMap_congr_range
  intro t _
  simp only [Nat.zero_add, Nat.add_assoc]

theorem memWord_congr (f g : Nat → LogicArray) (a a' k : Nat) (h : ∀ j < k, f (a + j) = g (a' + j)) : memWord f a k = memWord g a' k := by
  rw [← List.reverse_inj, memWord_reverse, memWord_reverse]
  apply flatMap_congr_range
  intro t ht
  rw [h t ht]

/-- the words of an INCR read -/
theorem axiRead_incr (size m a len : Nat) (hs : 0 < size) (hm : 0 < m) (mem : Nat → LogicArray) (rdata : List LogicArray)
    (h : AxiAnswers (size * m) size .incr a len (fun _ => mem) rdata) :
    ∃ ws, axiSlices (size * m) size .incr (a % (size * m) / size * size) rdata = .ok ws ∧ ws.length = len ∧
      axiReadWords size a .incr ws = .ok ((List.range len).map (fun i => memWord mem (a + i * size) (if i + 1 = len then size - a % size else size))) := by
  obtain ⟨hlen, h⟩ := h
  obtain ⟨ws, h1, h2, h3⟩ := axiSlices_get size m hs hm .incr (by decide) rdata (by
    intro v hv
    obtain ⟨n, hn⟩ := List.getElem?_of_mem hv
    exact (h n v hn).1) (a / size)
  rw [div_mod_block]
  refine ⟨ws, h1, by omega, ?_⟩
  generalize hG : (fun t => lane (rdata.getD (t / size) []) ((a / size + t / size) % m * size + t % size)) = G
  have hGt : ∀ n j, j < size → G (n * size + j) = lane (rdata.getD n []) ((a / size + n) % m * size + j) := by
    intro n j hj
    rw [← hG]
    simp only
    rw [show (n * size + j) / size = n by rw [Nat.add_comm, Nat.add_mul_div_right _ _ hs, Nat.div_eq_of_lt hj, Nat.zero_add],
      show (n * size + j) % size = j by rw [Nat.add_comm, Nat.add_mul_mod_self_right, Nat.mod_eq_of_lt hj]]
  have hsplit : ∀ t < len * size, ∃ n j, n < len ∧ j < size ∧ t = n * size + j := by
    intro t ht
    refine ⟨t / size, t % size, (Nat.div_lt_iff_lt_mul hs).2 ht, Nat.mod_lt _ hs, ?_⟩
    rw [Nat.mul_comm, Nat.div_add_mod]
  have hget : ∀ n < len, rdata[n]? = some (rdata.getD n []) := by
    intro n hn
    rw [List.getD_eq_getElem?_getD, List.getElem?_eq_getElem (by omega)]
    rfl
  have hGl : ∀ t < len * size, (G t).length = 8 := by
    intro t ht
    obtain ⟨n, j, hn, hj, rfl⟩ := hsplit t ht
    rw [hGt n j hj]
    apply lane_length
    rw [(h n _ (hget n hn)).1]
    have hx : (a / size + n) % m < m := Nat.mod_lt _ hm
    have : ((a / size + n) % m + 1) * size ≤ m * size := Nat.mul_le_mul_right _ hx
    rw [Nat.add_mul, Nat.one_mul, Nat.mul_comm m] at this
    omega
  have hGm : ∀ t < len * size, a % size ≤ t → G t = mem (alignedAddr size a + t) := by
    intro t ht hge
    obtain ⟨n, j, hn, hj, rfl⟩ := hsplit t ht
    rw [hGt n j hj]
    have hal := alignedAddr_eq size a
    have hbl := alignedAddr_incr size a len n hs
    have := (h n _ (hget n hn)).2 (alignedAddr size a + (n * size + j)) (by
      unfold InBeat
      rw [hbl]
      refine ⟨?_, by omega⟩
      unfold beatAddr
      simp only
      split
      · omega
      · omega)
    refine Eq.trans ?_ this
    congr 1
    have hli := lane_index size m (beatAddr size .incr a len n) j hs hj
    rw [hbl, beatAddr_incr_div _ _ _ _ hs] at hli
    rw [← hli, Nat.add_assoc]
  have hws : ws = (List.range len).map (fun n => memWord (fun j => G (n * size + j)) 0 size) := by
    apply List.ext_getElem?
    intro n
    by_cases hn : n < len
    · rw [h3 n _ (hget n hn), List.getElem?_map, List.getElem?_range hn, Option.map_some]
      congr 1
      apply memWord_congr
      intro j hj
      rw [Nat.zero_add, hGt n j hj]
    · rw [List.getElem?_eq_none (by omega), List.getElem?_eq_none (by simp; omega)]
  have hfin : ∀ i < len, memWord (fun j => G (a % size + i * size + j)) 0 (if i + 1 = len then size - a % size else size) =
      memWord mem (a + i * size) (if i + 1 = len then size - a % size else size) := by
    intro i hi
    apply memWord_congr
    intro j hj
    have hal := alignedAddr_eq size a
    have hsz := Nat.mod_lt a hs
    rw [hGm _ _ (by omega)]
    · congr 1
      omega
    · by_cases hl : i + 1 = len
      · rw [if_pos hl] at hj
        rw [← hl, Nat.add_mul, Nat.one_mul]
        omega
      · rw [if_neg hl] at hj
        have : (i + 1 + 1) * size ≤ len * size := Nat.mul_le_mul_right _ (by omega)
        rw [Nat.add_mul, Nat.add_mul, Nat.one_mul] at this
        omega
  have hmap : (List.range len).map (fun i => memWord (fun j => G (a % size + i * size + j)) 0 (if i + 1 = len then size - a % size else size)) =
      (List.range len).map (fun i => memWord mem (a + i * size) (if i + 1 = len then size - a % size else size)) := by
    apply List.map_congr_left
    intro i hi
    exact hfin i (List.mem_range.1 hi)
  unfold axiReadWords
  by_cases hz : a % size = 0
  · rw [if_neg (by simpa using hz), ← hmap, hws, hz]
    congr 1
    apply List.map_congr_left
    intro i _
    simp only [Nat.sub_zero, ite_self, Nat.zero_add]
  · rw [if_pos hz]
    simp only
    rw [axiRealign_eq size (a % size) len hs (Nat.mod_lt _ hs) G hGl ws hws, hmap]

/-- the words of a FIXED read -/
theorem axiRead_fixed (size m a len : Nat) (hs : 0 < size) (hm : 0 < m) (mem : Nat → Nat → LogicArray) (rdata : List LogicArray)
    (h : AxiAnswers (size * m) size .fixed a len mem rdata) :
    ∃ ws, axiSlices (size * m) size .fixed (a % (size * m) / size * size) rdata = .ok ws ∧ ws.length = len ∧
      axiReadWords size a .fixed ws = .ok ((List.range len).map (fun i => memWord (mem i) a (size - a % size))) := by
  obtain ⟨hlen, h⟩ := h
  have hl : ∀ v ∈ rdata, v.length = 8 * (size * m) := by
    intro v hv
    obtain ⟨n, hn⟩ := List.getElem?_of_mem hv
    exact (h n v hn).1
  have hblk : a / size % m < m := Nat.mod_lt _ hm
  have hle : a / size % m * size + size ≤ size * m := by
    have : (a / size % m + 1) * size ≤ m * size := Nat.mul_le_mul_right _ hblk
    rw [Nat.add_mul, Nat.one_mul] at this
    rw [Nat.mul_comm size m]; exact this
  rw [div_mod_block, axiSlices_fixed size m hs _ hblk rdata hl]
  refine ⟨_, rfl, by simp [hlen], ?_⟩
  have hsz := Nat.mod_lt a hs
  have hword : ∀ i v, rdata[i]? = some v → memWord (fun j => lane v (a / size % m * size + (a % size + j))) 0 (size - a % size) = memWord (mem i) a (size - a % size) := by
    intro i v hv
    apply memWord_congr
    intro j hj
    simp only [Nat.zero_add]
    have hal := alignedAddr_eq size a
    rw [← lane_index size m a (a % size + j) hs (by omega), show alignedAddr size a + (a % size + j) = a + j by omega]
    refine (h i v hv).2 (a + j) ?_
    unfold InBeat beatAddr
    simp only
    omega
  have hcut : ∀ v ∈ rdata, binarySlice (memWord (lane v) (a / size % m * size) size) 0 (size * 8 - a % size * 8 - 1) =
      .ok (memWord (fun j => lane v (a / size % m * size + (a % size + j))) 0 (size - a % size)) := by
    intro v hv
    have hvl := hl v hv
    have hrl : ∀ t < size, (lane v (a / size % m * size + t)).length = 8 := by
      intro t ht
      apply lane_length
      omega
    have hwl : (memWord (lane v) (a / size % m * size) size).length = 8 * size := by
      rw [← List.length_reverse, memWord_reverse, flatMap_range_length _ 8 size]
      intro t ht
      rw [List.length_reverse, hrl t ht]
    unfold binarySlice
    rw [if_pos (by omega), if_pos (by omega)]
    congr 1
    rw [← List.reverse_inj, slice_reverse _ _ _ (8 * (a % size)) (by omega), memWord_reverse, memWord_reverse,
      flatMap_range_drop _ 8 _ _ (by intro t ht; rw [List.length_reverse, hrl t ht]) (by omega)]
    simp only [Nat.zero_add]
    apply List.take_of_length_le
    rw [flatMap_range_length _ 8 _ (by intro t ht; rw [List.length_reverse, hrl _ (by omega)])]
    omega
  have hmap : rdata.map (fun v => memWord (fun j => lane v (a / size % m * size + (a % size + j))) 0 (size - a % size)) =
      (List.range len).map (fun i => memWord (mem i) a (size - a % size)) := by
    apply List.ext_getElem?
    intro n
    rw [List.getElem?_map, List.getElem?_map]
    by_cases hn : n < len
    · rw [List.getElem?_range hn, List.getElem?_eq_getElem (by omega)]
      simp only [Option.map_some]
      rw [hword n _ (List.getElem?_eq_getElem (by omega))]
    · rw [List.getElem?_eq_none (by omega), List.getElem?_eq_none (by simp; omega)]
      rfl
  unfold axiReadWords
  by_cases hz : a % size = 0
  · rw [if_neg (by simpa using hz), ← hmap]
    congr 1
    apply List.map_congr_left
    intro v _
    rw [hz]
    apply memWord_congr
    intro j _
    simp
  · rw [if_pos hz]
    simp only
    rw [List.mapM_map, ← hmap]
    exact mapM_ok _ _ _ hcut

/-- the words of a WRAP read whose bytes fill whole bus words -/
theorem axiRead_wrap (size m a len : Nat) (hs : 0 < size) (hm : 0 < m) (mem : Nat → LogicArray) (rdata : List LogicArray)
    (hal : a % size = 0) (hfull : m ∣ len ∨ a % (size * len) = 0)
    (h : AxiAnswers (size * m) size .wrap a len (fun _ => mem) rdata) :
    ∃ ws, axiSlices (size * m) size .wrap (a % (size * m) / size * size) rdata = .ok ws ∧ ws.length = len ∧
      axiReadWords size a .wrap ws = .ok ((List.range len).map (fun i => memWord mem (beatAddr size .wrap a len i) size)) := by
  obtain ⟨hlen, h⟩ := h
  obtain ⟨ws, h1, h2, h3⟩ := axiSlices_get size m hs hm .wrap (by decide) rdata (by
    intro v hv
    obtain ⟨n, hn⟩ := List.getElem?_of_mem hv
    exact (h n v hn).1) (a / size)
  rw [div_mod_block]
  refine ⟨ws, h1, by omega, ?_⟩
  unfold axiReadWords
  rw [if_neg (by simpa using hal)]
  congr 1
  apply List.ext_getElem?
  intro n
  by_cases hn : n < len
  · obtain ⟨v, hv⟩ : ∃ v, rdata[n]? = some v := ⟨_, List.getElem?_eq_getElem (by omega)⟩
    rw [h3 n v hv, List.getElem?_map, List.getElem?_range hn, Option.map_some]
    congr 1
    apply memWord_congr
    intro j hj
    obtain ⟨w1, w2⟩ := wrap_lanes size m a len n hs hn hal hfull
    have hali := alignedAddr_eq size (beatAddr size .wrap a len n)
    rw [w2, Nat.add_zero] at hali
    rw [← w1, ← lane_index size m _ j hs hj, hali]
    refine (h n v hv).2 _ ?_
    unfold InBeat
    rw [hali]
    omega
  · rw [List.getElem?_eq_none (by omega), List.getElem?_eq_none (by simp; omega)]

/-- a beat whose word is taken from lanes other than those of the bytes it addresses -/
theorem axiRead_wrap_short (size m a len : Nat) (hs : 0 < size) (rdata : List LogicArray) (hpos : 0 < len)
    (hal : a % size = 0) (hshort : len < m) (h0 : a % (size * len) ≠ 0) (hlen : rdata.length = len) (hw : ∀ v ∈ rdata, v.length = 8 * (size * m)) :
    ∃ ws i v l, axiSlices (size * m) size .wrap (a % (size * m) / size * size) rdata = .ok ws ∧ axiReadWords size a .wrap ws = .ok ws ∧
      rdata[i]? = some v ∧ ws[i]? = some (memWord (lane v) l size) ∧ ∀ b, InBeat size .wrap a len i b → ¬ (l ≤ b % (size * m) ∧ b % (size * m) < l + size) := by
  obtain ⟨ws, h1, h2, h3⟩ := axiSlices_get size m hs (by omega) .wrap (by decide) rdata hw (a / size)
  obtain ⟨n, hn, hne, hz⟩ := wrap_wrong size m a len hs hpos hshort hal h0
  obtain ⟨v, hv⟩ : ∃ v, rdata[n]? = some v := ⟨_, List.getElem?_eq_getElem (by omega)⟩
  rw [div_mod_block]
  refine ⟨ws, n, v, _, h1, ?_, hv, h3 n v hv, ?_⟩
  · unfold axiReadWords
    rw [if_neg (by simpa using hal)]
  · intro b hb h
    have hali := alignedAddr_eq size (beatAddr size .wrap a len n)
    rw [hz, Nat.add_zero] at hali
    unfold InBeat at hb
    rw [hali] at hb
    generalize beatAddr size .wrap a len n = A at *
    have hb' : b / size = A / size := by
      obtain ⟨c, rfl⟩ : ∃ c, A = size * c := ⟨A / size, by have := Nat.div_add_mod A size; omega⟩
      rw [Nat.mul_div_cancel_left _ hs]
      apply Nat.div_eq_of_lt_le
      · rw [Nat.mul_comm]; exact hb.1
      · rw [Nat.add_mul, Nat.one_mul, Nat.mul_comm]; exact hb.2
    have e : b % (size * m) / size = A / size % m := by rw [Nat.mod_mul_right_div_self, hb']
    apply hne
    rw [← e]
    generalize (a / size + n) % m = K at *
    apply Nat.div_eq_of_lt_le
    · exact h.1
    · rw [Nat.add_mul, Nat.one_mul]; omega

end CocotbBus
