import Verif.Proof.AxiProps
import Verif.Proof.MemBytes

/-! # AXI4 master reads: what the API properties need -/

namespace CocotbBus
open Spec Coro

theorem axiReadWords_ok (size m a : Nat) (hs : 0 < size) (hm : 0 < m) (burst : AxiBurst) (rdata : List LogicArray) (hl : ∀ v ∈ rdata, v.length = 8 * (size * m))
    (sl : List LogicArray) (h : axiSlices (size * m) size burst (a % (size * m) / size * size) rdata = .ok sl) :
    sl.length = rdata.length ∧ ∃ ws, axiReadWords size a burst sl = .ok ws ∧ ws.length = sl.length := by
  by_cases hb : burst = .fixed
  · subst hb
    obtain ⟨ws, h1, h2, h3⟩ := axiRead_fixed size m a rdata.length hs hm (fun n b => lane (rdata.getD n []) (b % (size * m))) rdata
      ⟨rfl, fun n v hv => ⟨hl v (List.mem_of_getElem? hv), fun b _ => by simp [List.getD, hv]⟩⟩
    rw [h] at h1
    injection h1 with h1
    subst h1
    exact ⟨h2, _, h3, by simp [h2]⟩
  · obtain ⟨ws, h1, h2, _⟩ := axiSlices_get size m hs hm burst hb rdata hl (a / size)
    rw [← div_mod_block, h] at h1
    injection h1 with h1
    subst h1
    refine ⟨h2, ?_⟩
    unfold axiReadWords
    by_cases hz : a % size = 0
    · rw [if_neg (by simpa using hz)]
      exact ⟨_, rfl, rfl⟩
    · rw [if_pos hz]
      have : axiRealign sl (size * 8) (a % size * 8) = .ok ((List.range sl.length).map
          (fun i => (pySlice ((sl.flatMap List.reverse).drop (a % size * 8)) (i * (size * 8)) ((i + 1) * (size * 8))).reverse)) := by
        unfold axiRealign
        exact mapM_ok _ _ _ (fun i _ => axiWord_ok _)
      cases burst with
      | fixed => exact absurd rfl hb
      | incr => exact ⟨_, this, by simp⟩
      | wrap => exact ⟨_, this, by simp⟩

theorem axiFinish_eq (a len size : Nat) (burst : AxiBurst) (rr : Bool) (st : RState) (ws : List LogicArray) (h : axiReadWords size a burst st.data = .ok ws)
    (hl : st.data.length = len) : axiFinish a len size burst rr st = readOutcome rr ws st.resp := by
  unfold axiFinish readOutcome
  rw [if_neg (by simp [hl]), h]
  have hf : (fun r : Nat => r != 0) = (fun r => decide (r ≠ 0)) := by
    funext r
    by_cases h : r = 0 <;> simp [h]
  rw [hf]
  cases rr with
  | true => rfl
  | false =>
    simp only [Bool.false_eq_true, if_false]
    cases st.resp.find? (fun r => decide (r ≠ 0)) <;> rfl

/-- everything about a read by the API -/
theorem axiRead_core (c : AxCfg) (hc : Standard c) (a : Nat) (ha : a < 2 ^ c.addrW) (length : Int) (size : Option Int) (burst : AxiBurst)
    (rr sync : Bool) (sz : Nat) (hl : Legal c a length size burst sz) (s : Sim AxIn AddrOut) (hs : ReadReady sync s) (hg : ∀ i ∈ s.cur :: s.rest, GoodBeat c.dataBytes i) :
    let r := axiRead c a length size burst rr sync s
    let t := (arStream c).after r.1
    (result r = none ∧ ∀ q ∈ t, rFire q.2 = true → rLast c q.2 = false) ∨
    (OneBurst c t ∧ (∀ i ∈ rBeats t, i.rdata.length = 8 * c.dataBytes) ∧
      ∃ sl, axiSlices c.dataBytes sz burst (a % c.dataBytes / sz * sz) ((rBeats t).map (·.rdata)) = .ok sl ∧ sl.length = (rBeats t).length ∧
        ∃ ws, axiReadWords sz a burst sl = .ok ws ∧ ws.length = sl.length ∧
        result r = some (if (rBeats t).length = length.toNat then readOutcome rr ws ((rBeats t).map (fun i => bitsToNat i.rresp))
          else .error .axiReadBurstLengthMismatch)) := by
  intro r t
  have hr : r = axiReadRun c a length.toNat sz burst rr sync s := by
    show axiRead c a length size burst rr sync s = _
    rw [axiRead_legal c hc a length size burst rr sync sz hl]
  obtain ⟨h1, h2, h3, k, m, hk, hm, hW⟩ := Legal.facts hl hc ha
  have hspec := axiReadRun_spec c a length.toNat sz m burst rr sync h1 h2 hm hW s hs.1 hs.2 hg
  have hgood := axiReadRun_good c a length.toNat sz burst rr sync s
  rw [← hr] at hgood
  simp only at hspec
  rw [← hr] at hspec
  obtain ⟨t1, t2, ar, e1, e2, e3, e4, e5⟩ := hspec
  cases har : ar with
  | false =>
    subst har
    obtain ⟨f1, f2⟩ := e4 rfl
    subst f1
    have : t = [] := by
      show (arStream c).after r.1 = []
      rw [e1, List.append_nil]
      exact after_request_none e2
    exact .inl ⟨f2, by rw [this]; simp⟩
  | true =>
    subst har
    have ht : t = t2 := by
      show (arStream c).after r.1 = t2
      rw [e1]
      exact after_request e2
    rw [ht]
    rcases e5 with e5 | ⟨_, e5, sl, e6, e7⟩
    · exact .inl e5
    · refine .inr ⟨e5, ?_⟩
      have hbl : ∀ i ∈ rBeats t2, i.rdata.length = 8 * c.dataBytes := by
        intro i hi
        unfold rBeats at hi
        rw [List.mem_filter] at hi
        obtain ⟨hi1, hi2⟩ := hi
        refine (hg i ?_ hi2).1
        have hmem : i ∈ r.1.map Prod.snd := by
          rw [e1, List.map_append]
          exact List.mem_append_right _ hi1
        have g1 := hgood.1
        rw [g1]
        exact List.mem_append_left _ hmem
      refine ⟨hbl, sl, e6, ?_⟩
      have hbl' : ∀ v ∈ (rBeats t2).map (fun i => i.rdata), v.length = 8 * (sz * m) := by
        intro v hv
        obtain ⟨i, hi, rfl⟩ := List.mem_map.1 hv
        rw [← hW]
        exact hbl i hi
      have e6' := e6
      rw [hW] at e6'
      obtain ⟨g1, ws, g2, g3⟩ := axiReadWords_ok sz m a h2 hm burst _ hbl' sl e6'
      rw [List.length_map] at g1
      refine ⟨g1, ws, g2, g3, ?_⟩
      rw [e7]
      congr 1
      by_cases hlen : (rBeats t2).length = length.toNat
      · rw [if_pos hlen]
        exact axiFinish_eq _ _ _ _ _ _ ws g2 (by rw [g1]; exact hlen)
      · rw [if_neg hlen]
        unfold axiFinish
        rw [if_pos (by simp only; rw [g1]; exact hlen)]

/-! ### Words and bytes -/

theorem byteBits_byteOf (n j : Nat) : byteBits (byteOf n j) = natToBits 8 (n / 2 ^ (8 * j)) := by
  unfold byteBits byteOf
  rw [BitVec.toNat_ofNat, natToBits_mod, Nat.pow_mul]

theorem memWord_succ (mem : Nat → LogicArray) (a k : Nat) : memWord mem a (k + 1) = mem (a + k) ++ memWord mem a k := by
  unfold memWord
  rw [List.range_succ, List.reverse_append]
  rfl

/-- a little-endian word of a memory -/
theorem memWord_value (mem : Nat → LogicArray) (a v : Nat) : ∀ k, (∀ j < k, mem (a + j) = byteBits (byteOf v j)) → memWord mem a k = natToBits (8 * k) v := by
  intro k
  induction k with
  | zero => intro _; rfl
  | succ k ih =>
    intro h
    rw [memWord_succ, ih (fun j hj => h j (by omega)), h k (by omega), byteBits_byteOf, show 8 * (k + 1) = 8 + 8 * k by omega, natToBits_split]

/-- a single beat is always legal -/
theorem legal_single (c : AxCfg) (hc : Standard c) (a : Nat) : Legal c a 1 none .incr c.dataBytes := by
  obtain ⟨⟨j, hj, hW⟩, _⟩ := hc
  refine ⟨rfl, ⟨by decide, by decide⟩, fun _ => ?_⟩
  obtain ⟨q, hq⟩ := dvd_4096 j 12 (Nat.pow_le_pow_right (by decide) (by omega)) (Nat.le_refl _)
  intro n hn b hb
  have hn0 : n = 0 := by
    have : n < 1 := hn
    omega
  subst hn0
  have h := inBeat_incr c.dataBytes a 1 0 b (by rw [hW]; exact Nat.two_pow_pos _) hb
  rw [hW] at h
  rw [← hq, ← Nat.div_div_eq_div_mul, ← Nat.div_div_eq_div_mul, h]
  rfl

end CocotbBus
