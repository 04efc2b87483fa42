import Verif.Spec.MemOps
import Verif.Proof.MemServe

/-! # Sequences of bursts of `AvalonMemory` -/

namespace CocotbBus
open Spec Coro

theorem memWaitWrite_one (s : Sim MemIn MemOut) (h : s.cur.write = .one) (hp : s.phase = .edge → s.prev.write = .one) :
    memWaitWrite s = ([], .ok () s) := by
  unfold memWaitWrite
  obtain ⟨i, hinp, hi⟩ : ∃ i, (inp : M MemIn MemOut MemIn) s = ([], .ok i s) ∧ i.write = .one := by
    refine ⟨_, rfl, ?_⟩
    cases hph : s.phase
    · exact hp hph
    · exact h
    · exact h
  rw [bind_silent _ _ _ _ _ hinp]
  simp [hi, pure_run]

/-- the beats of a write burst without waits and gaps -/
theorem memBurstBeats_run {c : MemCfg} (hc : BurstMem c) (hwb : c.writeBurstWaitReq = false) (rand : Nat → Nat) (addr : Nat) :
    ∀ (beats : List MemIn) (k : Nat) (s : Sim MemIn MemOut) (b g : MemIn) (r : List MemIn), s.cur = b → s.rest = beats ++ g :: r →
    (s.phase = .edge → s.prev.write = .one) → (∀ i ∈ b :: beats, i.write = .one ∧ isResolvable i.writedata = true) →
    ∃ t p, memBurstBeats c rand addr (beats.length + 1) k s =
      (t, .ok () ⟨.edge, { s.out with mem := storeWords c s.out.mem (addr + k * c.size) ((b :: beats).map (fun i => bitsToNat i.writedata)) }, p, g, r⟩) ∧
      t.map (fun q => memPins q.1) = List.replicate (beats.length + 1) (memPins s.out) ∧ t.map Prod.snd = b :: beats := by
  have hsz : 0 < c.width / 8 := by have := hc.bytes; have := hc.pos; omega
  intro beats
  induction beats with
  | nil =>
    intro k s b g r hb hr hp hw
    subst hb
    have hw0 := hw s.cur (by simp)
    refine ⟨[({ s.out with mem := memScatter (bitsToNat s.cur.writedata) (addr + k * c.size) c.size 0 s.out.mem }, s.cur)], s.cur, ?_, rfl, rfl⟩
    rw [List.length_nil, memBurstBeats, bind_silent _ _ _ _ _ (memWaitWrite_one s hw0.1 hp)]
    unfold memStore
    simp only [bind_assoc]
    rw [bind_nextStep, bind_inp_mid _ _ rfl, toUnsigned_ok _ hw0.2, bind_ofExcept_ok, bind_setPy, bind_awaitEdge_cons _ _ g r (by simpa using hr)]
    simp only [memWaitrequest, hwb, Coro.when, Bool.false_eq_true, if_false, memBurstBeats, pure_bind, pure_run, List.map_cons, List.map_nil]
    rw [← storeWords_cons c hsz, storeWords_nil]
  | cons b' beats ih =>
    intro k s b g r hb hr hp hw
    subst hb
    have hw0 := hw s.cur (by simp)
    rw [List.length_cons, memBurstBeats, bind_silent _ _ _ _ _ (memWaitWrite_one s hw0.1 hp)]
    unfold memStore
    simp only [bind_assoc]
    rw [bind_nextStep, bind_inp_mid _ _ rfl, toUnsigned_ok _ hw0.2, bind_ofExcept_ok, bind_setPy, bind_awaitEdge_cons _ _ b' (beats ++ g :: r) (by simpa using hr)]
    simp only [memWaitrequest, hwb, Coro.when, Bool.false_eq_true, if_false, pure_bind]
    obtain ⟨t, p, h1, h2, h3⟩ := ih (k + 1) ⟨.edge, { s.out with mem := memScatter (bitsToNat s.cur.writedata) (addr + k * c.size) c.size 0 s.out.mem }, s.cur, b', beats ++ g :: r⟩ b' g r rfl rfl
      (fun _ => hw0.1) (fun i hi => hw i (List.mem_cons_of_mem _ hi))
    rw [h1]
    refine ⟨({ s.out with mem := memScatter (bitsToNat s.cur.writedata) (addr + k * c.size) c.size 0 s.out.mem }, s.cur) :: t, p, ?_, ?_, ?_⟩
    · simp only
      rw [show addr + (k + 1) * c.size = addr + k * c.size + c.size by rw [Nat.add_mul, Nat.one_mul]; omega, storeWords_cons c hsz, List.map_cons (l := b' :: beats)]
    · rw [List.map_cons, h2, ← List.replicate_succ]; rfl
    · rw [List.map_cons, h3]

/-- a write burst without waits and gaps, and the cycle after it -/
theorem memCycle_write_plain {c : MemCfg} (hc : BurstMem c) (hwb : c.writeBurstWaitReq = false) (rand : Nat → Nat) (s : Sim MemIn MemOut)
    (hresp : s.out.responses = []) (b : MemIn) (beats : List MemIn) (g : MemIn) (r : List MemIn) (hr : s.rest = b :: beats ++ g :: r)
    (hrd : b.read ≠ .one) (ha : isResolvable b.address = true) (hb : isResolvable b.burstcount = true) (hn : bitsToNat b.burstcount = beats.length + 1)
    (hw : ∀ i ∈ b :: beats, i.write = .one ∧ isResolvable i.writedata = true) :
    ∃ t p, memCycle c rand s = ((s.out, s.cur) :: t,
      .ok () ⟨.edge, { s.out with responses := [], readdatavalid := .zero, mem := storeWords c s.out.mem (bitsToNat b.address) ((b :: beats).map (fun i => bitsToNat i.writedata)) }, p, g, r⟩) ∧
      t.map (fun q => memPins q.1) = List.replicate (beats.length + 1) (s.out.readdata, .zero, s.out.waitrequest) ∧ t.map Prod.snd = b :: beats := by
  have hsz : c.size ≠ 0 := by have := hc.bytes; have := hc.pos; unfold MemCfg.size; omega
  have hpop : memPop c s.out = { s.out with responses := [], readdatavalid := .zero } := by simp [memPop, hresp, hc.rdv]
  unfold memCycle
  rw [bind_awaitEdge_cons _ _ b (beats ++ g :: r) (by simpa using hr)]
  rw [bind_silent _ _ _ _ _ (memDoResponse_run c (by have := hc.bytes; omega) ⟨.edge, s.out, s.cur, b, beats ++ g :: r⟩ (by simp) (by simp [hresp]))]
  rw [bind_readOnly _ _ _ (by simp), hpop]
  have hrp : memReadPart c rand (⟨.ro, { s.out with responses := [], readdatavalid := .zero }, s.cur, b, beats ++ g :: r⟩ : Sim MemIn MemOut) =
      ([], .ok () ⟨.ro, { s.out with responses := [], readdatavalid := .zero }, s.cur, b, beats ++ g :: r⟩) := by
    unfold memReadPart
    simp only [hc.read.1, hc.read.2, Coro.when, if_true, Bool.not_true, Bool.false_eq_true, if_false, pure_bind]
    rw [bind_inp_ro _ _ rfl]
    simp [hrd, pure_run]
  rw [bind_silent _ _ _ _ _ hrp]
  unfold memWritePart
  simp only [hc.write.1, hc.write.2, hc.burst, Coro.when, if_true, Bool.not_true, Bool.false_eq_true, if_false, pure_bind]
  rw [bind_inp_ro _ _ rfl]
  simp only [(hw b (by simp)).1, if_true]
  unfold memBurstWrite
  simp only [memWaitrequest, hwb, Coro.when, Bool.false_eq_true, if_false, pure_bind]
  rw [bind_inp_ro _ _ rfl, toUnsigned_ok _ ha, bind_ofExcept_ok]
  simp only [show (c.size == 0) = false by simpa using hsz, Bool.false_eq_true, if_false, pure_bind]
  simp only [show c.beW.isNone = false by have := hc.be; cases h : c.beW <;> simp_all, Bool.false_eq_true, if_false, pure_bind]
  rw [toUnsigned_ok _ hb, bind_ofExcept_ok, hn]
  obtain ⟨t, p, h1, h2, h3⟩ := memBurstBeats_run hc hwb rand (bitsToNat b.address) beats 0
    ⟨.ro, { s.out with responses := [], readdatavalid := .zero }, s.cur, b, beats ++ g :: r⟩ b g r rfl rfl (by simp) hw
  rw [Nat.zero_mul, Nat.add_zero] at h1
  refine ⟨t, p, ?_, h2, h3⟩
  rw [bind_run, h1]
  simp [pure_run]

theorem wholeWords_store (c : MemCfg) (hc : BurstMem c) (mem : Nat → Option Nat) (h : WholeWords c mem) (addr : Nat) (hal : addr % (c.width / 8) = 0)
    (ws : List Nat) : WholeWords c (storeWords c mem addr ws) := by
  have hsz : 0 < c.width / 8 := by have := hc.bytes; have := hc.pos; omega
  intro a ha
  by_cases hin : addr ≤ a ∧ a < addr + ws.length * (c.width / 8)
  · right
    intro j hj
    obtain ⟨h1, h2⟩ := hin
    obtain ⟨d, rfl⟩ := Nat.exists_eq_add_of_le h1
    have hd : d % (c.width / 8) = 0 := by
      rw [Nat.add_mod, hal, Nat.zero_add, Nat.mod_mod] at ha; exact ha
    obtain ⟨q, rfl⟩ := Nat.dvd_of_mod_eq_zero hd
    have hq : q < ws.length := by
      have : c.width / 8 * q < c.width / 8 * ws.length := by rw [Nat.mul_comm _ ws.length]; omega
      exact Nat.lt_of_mul_lt_mul_left this
    have hle : c.width / 8 * (q + 1) ≤ c.width / 8 * ws.length := Nat.mul_le_mul_left _ hq
    rw [Nat.mul_add, Nat.mul_one, Nat.mul_comm _ ws.length] at hle
    have e1 : (addr + c.width / 8 * q + j - addr) / (c.width / 8) = q := by
      rw [show addr + c.width / 8 * q + j - addr = j + c.width / 8 * q by omega, Nat.add_mul_div_left _ _ hsz, Nat.div_eq_of_lt hj, Nat.zero_add]
    rw [storeWords, if_pos ⟨by omega, by omega⟩, e1, List.getElem?_eq_getElem hq]
    exact ⟨_, rfl, (byteOf _ _).isLt⟩
  · have hout : ∀ j < c.width / 8, storeWords c mem addr ws (a + j) = mem (a + j) := by
      intro j hj
      rw [storeWords, if_neg]
      rintro ⟨h1, h2⟩
      apply hin
      obtain ⟨x, rfl⟩ := Nat.dvd_of_mod_eq_zero ha
      obtain ⟨y, rfl⟩ := Nat.dvd_of_mod_eq_zero hal
      have hy : y ≤ x := by
        by_contra hlt
        have : c.width / 8 * (x + 1) ≤ c.width / 8 * y := Nat.mul_le_mul_left _ (by omega)
        rw [Nat.mul_add, Nat.mul_one] at this
        omega
      exact ⟨Nat.mul_le_mul_left _ hy, by omega⟩
    rcases h a ha with h | h
    · left
      have := hout 0 hsz
      rw [Nat.add_zero] at this
      rw [this, h]
    · right
      intro j hj
      rw [hout j hj]
      exact h j hj

end CocotbBus
