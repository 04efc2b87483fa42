import Verif.Spec.AxiSlave
import Verif.Proof.AxiSlave

namespace CocotbBus
open Coro Spec

theorem pinValue_joinBytes (b : Bytes) : pinValue (joinBytes b) = .array (joinBytes b) := by
  have h := joinBytes_length b
  unfold pinValue
  split
  · rename_i l e
    rw [e] at h
    simp only [List.length_cons, List.length_nil] at h
    omega
  · rfl

theorem beat_convert (be : Bool) (b : Bytes) : convertBinaryToBytes (pinValue (beatBits be b)) be = .ok b := by
  unfold beatBits
  rw [pinValue_joinBytes, convert_joinBytes]
  cases be <;> simp

theorem asWBody_beat (c : AsCfg) (addr length bytes count : Nat) (s : Sim AsIn AsWOut) (hs : s.phase = .edge) (b : Bytes)
    (h : ShowsBeat c.bigEndian s.prev (some b)) :
    asWBody c addr length bytes count s =
      (if count - 1 = 0 then pure (.inr ()) else (awaitEdge >>= fun _ => pure (.inl (count - 1))) : M AsIn AsWOut (Nat ⊕ Unit))
        { s with out := { s.out with mem := pySetSlice s.out.mem (addr + (length - count) * bytes) (addr + (length - count + 1) * bytes) b } } := by
  unfold asWBody
  rw [bind_inp_edge _ _ hs]
  simp only []
  rw [if_pos h.1, h.2, beat_convert, bind_ofExcept_ok, bind_silent _ _ _ _ _ rfl]

theorem asWBody_none (c : AsCfg) (addr length bytes count : Nat) (s : Sim AsIn AsWOut) (hs : s.phase = .edge)
    (h : ShowsBeat c.bigEndian s.prev none) :
    asWBody c addr length bytes count s = (awaitEdge >>= fun _ => pure (.inl count)) s := by
  unfold asWBody
  rw [bind_inp_edge _ _ hs]
  simp only []
  rw [if_neg h]

theorem awaitInl {I O α : Type} (a : α) (β : Type) (s : Sim I O) :
    (s.rest = [] ∧ (awaitEdge >>= fun _ => pure (.inl a) : M I O (α ⊕ β)) s = ([], .blocked s)) ∨
    ∃ i r, s.rest = i :: r ∧ (awaitEdge >>= fun _ => pure (.inl a) : M I O (α ⊕ β)) s =
      ([(s.out, s.cur)], .ok (.inl a) { s with phase := .edge, prev := s.cur, cur := i, rest := r }) := by
  cases hr : s.rest with
  | nil => exact .inl ⟨rfl, bind_awaitEdge_nil _ _ hr⟩
  | cons i r => exact .inr ⟨i, r, rfl, by rw [bind_awaitEdge_cons _ _ i r hr]; rfl⟩

theorem awaitInl_consumes {I O α β : Type} (a b : α) (s s' : Sim I O) (t : List (O × I))
    (h : (awaitEdge >>= fun _ => pure (.inl a) : M I O (α ⊕ β)) s = (t, .ok (.inl b) s')) : s'.rest.length < s.rest.length := by
  rcases awaitInl (I := I) (O := O) a β s with ⟨_, e⟩ | ⟨i, r, e0, e⟩
  · rw [e] at h; cases h
  · rw [e] at h; cases h; rw [e0]; simp

theorem asWBody_consumes (c : AsCfg) (addr length bytes : Nat) : Consumes (asWBody c addr length bytes) := by
  intro b s t b' s' h
  unfold asWBody at h
  obtain ⟨i, hi⟩ : ∃ i, (inp : M AsIn AsWOut AsIn) s = ([], .ok i s) := ⟨_, rfl⟩
  rw [bind_silent _ _ _ _ _ hi] at h
  by_cases hv : i.wvalid = .one
  · rw [if_pos hv] at h
    cases hq : convertBinaryToBytes (pinValue i.wdata) c.bigEndian with
    | error e => rw [hq, bind_ofExcept_error] at h; cases h
    | ok v =>
      rw [hq, bind_ofExcept_ok, bind_silent _ _ _ _ _ rfl] at h
      split at h
      · cases h
      · have := awaitInl_consumes _ _ _ _ _ h
        exact this
  · rw [if_neg hv] at h
    exact awaitInl_consumes _ _ _ _ _ h

/-- the loop over the write data: `sched` are the cycles up to the last beat, `data` the beats still to come -/
theorem asW_run (c : AsCfg) (addr length bytes : Nat) (sched : List (AsIn × Option Bytes)) :
    ∀ (s : Sim AsIn AsWOut) (post : List AsIn), s.phase = .edge → s.prev :: s.cur :: s.rest = sched.map (·.1) ++ post → post ≠ [] →
    (∀ p ∈ sched, ShowsBeat c.bigEndian p.1 p.2) → (sched.getLast?.map (fun p => p.2.isSome)) = some true →
    (sched.filterMap (·.2)).length ≤ length → (∀ b ∈ sched.filterMap (·.2), b.length = bytes) →
    addr + length * bytes ≤ s.out.mem.length →
    ∃ t s', loop (asWBody c addr length bytes) (sched.filterMap (·.2)).length s = (t, .ok () s') ∧
      s'.phase = .edge ∧ s'.out.wready = s.out.wready ∧
      s'.out.mem = stored s.out.mem (addr + (length - (sched.filterMap (·.2)).length) * bytes) (sched.filterMap (·.2)).flatten ∧
      s'.cur :: s'.rest = post ∧ t.length + 1 = sched.length := by
  induction sched with
  | nil => intro s post _ _ _ _ h; cases h
  | cons p sched ih =>
    intro s post hs he hpost hshow hlast hlen hbytes hmem
    obtain ⟨i, ob⟩ := p
    rw [List.map_cons, List.cons_append] at he
    injection he with e1 e2
    have hi := hshow (i, ob) (by simp)
    change ShowsBeat c.bigEndian i ob at hi; rw [← (show s.prev = i from e1)] at hi
    have hshow' : ∀ p ∈ sched, ShowsBeat c.bigEndian p.1 p.2 := fun p hp => hshow p (by simp [hp])
    rw [loop_unfold _ (asWBody_consumes c addr length bytes), bind_run]
    cases ob with
    | none =>
      rw [asWBody_none c addr length bytes _ s hs hi]
      have hne : sched ≠ [] := by rintro rfl; simp at hlast
      obtain ⟨q, sched', rfl⟩ := List.exists_cons_of_ne_nil hne
      rw [List.map_cons, List.cons_append] at e2
      injection e2 with e2 e3
      have e3' : ∃ y r, s.rest = y :: r := by
        rw [e3]
        cases h : sched'.map (·.1) ++ post with
        | nil => exact absurd (List.append_eq_nil_iff.1 h).2 hpost
        | cons y r => exact ⟨y, r, rfl⟩
      obtain ⟨y, r, e4⟩ := e3'
      rw [bind_awaitEdge_cons _ _ y r e4]
      have hl : (q :: sched').getLast?.map (fun p => p.2.isSome) = some true := by
        simpa [List.getLast?_cons_cons] using hlast
      obtain ⟨t, s', h1, h2, h3, h4, h5, h6⟩ := ih ⟨.edge, s.out, s.cur, y, r⟩ post rfl
        (by rw [List.map_cons, List.cons_append, e2, ← e3, e4]) hpost hshow' hl (by simpa using hlen) (by simpa using hbytes) hmem
      rw [show ((i, none) :: q :: sched').filterMap (·.2) = (q :: sched').filterMap (·.2) from rfl]
      simp only [pure_run, andThen_ok]
      rw [h1]
      exact ⟨_, s', rfl, h2, h3, h4, h5, by simp [h6]⟩
    | some b =>
      have hb : b.length = bytes := hbytes b (by simp)
      have hlen' : (sched.filterMap (·.2)).length + 1 ≤ length := by simpa using hlen
      have hcnt : ((i, some b) :: sched).filterMap (·.2) = b :: sched.filterMap (·.2) := rfl
      rw [hcnt, List.length_cons, asWBody_beat c addr length bytes _ s hs b hi]
      generalize hn : (sched.filterMap (·.2)).length = n at *
      have hmul : (length - (n + 1)) * bytes + bytes ≤ length * bytes := by
        rw [← Nat.succ_mul]; exact Nat.mul_le_mul_right _ (by omega)
      have hslice : pySetSlice s.out.mem (addr + (length - (n + 1)) * bytes) (addr + (length - (n + 1) + 1) * bytes) b =
          stored s.out.mem (addr + (length - (n + 1)) * bytes) b := by
        unfold pySetSlice stored
        rw [hb, Nat.add_mul, Nat.one_mul, Nat.add_assoc]
      rw [hslice]
      by_cases hz : n = 0
      · subst hz
        rw [if_pos (by omega)]
        have hnil : sched = [] := by
          cases sched with
          | nil => rfl
          | cons q l =>
            exfalso
            have : ((q :: l).filterMap (·.2)) = [] := List.eq_nil_of_length_eq_zero hn
            rw [List.filterMap_eq_nil_iff] at this
            rw [List.getLast?_cons_cons] at hlast
            have hm : (q :: l).getLast? = some ((q :: l).getLast (by simp)) := List.getLast?_eq_some_getLast _
            rw [hm] at hlast
            have := this _ (List.getLast_mem (by simp : q :: l ≠ []))
            simp [this] at hlast
        subst hnil
        refine ⟨[], _, rfl, hs, rfl, ?_, ?_, rfl⟩
        · simp
        · simpa using e2
      · rw [if_neg (by omega)]
        have hne : sched ≠ [] := by rintro rfl; exact hz hn.symm
        obtain ⟨q, sched', rfl⟩ := List.exists_cons_of_ne_nil hne
        rw [List.map_cons, List.cons_append] at e2
        injection e2 with e2 e3
        have e3' : ∃ y r, s.rest = y :: r := by
          rw [e3]
          cases h : sched'.map (·.1) ++ post with
          | nil => exact absurd (List.append_eq_nil_iff.1 h).2 hpost
          | cons y r => exact ⟨y, r, rfl⟩
        obtain ⟨y, r, e4⟩ := e3'
        have hl : (q :: sched').getLast?.map (fun p => p.2.isSome) = some true := by
          simpa [List.getLast?_cons_cons] using hlast
        have hlenm : (stored s.out.mem (addr + (length - (n + 1)) * bytes) b).length = s.out.mem.length := by
          unfold stored
          rw [List.length_append, List.length_append, List.length_take, List.length_drop, hb]
          omega
        rw [bind_awaitEdge_cons _ _ y r (by exact e4)]
        obtain ⟨t, s', h1, h2, h3, h4, h5, h6⟩ := ih
          ⟨.edge, { s.out with mem := stored s.out.mem (addr + (length - (n + 1)) * bytes) b }, s.cur, y, r⟩ post rfl
          (by rw [List.map_cons, List.cons_append, e2, ← e3, e4]) hpost hshow' hl (by omega)
          (fun b' hb' => hbytes b' (by rw [hcnt]; exact List.mem_cons_of_mem _ hb')) (by rw [hlenm]; exact hmem)
        rw [show n + 1 - 1 = n by omega]
        simp only [pure_run, andThen_ok]
        rw [h1]
        refine ⟨_, s', rfl, h2, h3, ?_, h5, by simp [h6]⟩
        rw [h4]
        have hlf : ∀ l : List Bytes, (∀ b ∈ l, b.length = bytes) → l.flatten.length = l.length * bytes := by
          intro l hl
          induction l with
          | nil => simp
          | cons a l ih => rw [List.flatten_cons, List.length_append, ih (fun b hb => hl b (by simp [hb])), hl a (by simp), List.length_cons, Nat.succ_mul]; omega
        generalize hD : ((q :: sched').filterMap (·.2)) = D at *
        have hD' : D.flatten.length = n * bytes := by
          rw [hlf D (fun b' hb' => hbytes b' (by rw [hcnt]; exact List.mem_cons_of_mem _ hb')), hn]
        have ha : addr + (length - n) * bytes = addr + (length - (n + 1)) * bytes + bytes := by
          rw [show length - n = length - (n + 1) + 1 by omega, Nat.succ_mul]; omega
        have hA : addr + (length - (n + 1)) * bytes + bytes ≤ s.out.mem.length := by omega
        rw [List.flatten_cons]
        unfold stored
        rw [List.length_append, hD', hb, ha]
        generalize addr + (length - (n + 1)) * bytes = A at hA ⊢
        have l1 : (List.take A s.out.mem).length = A := by rw [List.length_take]; omega
        have l2 : (List.take A s.out.mem ++ b).length = A + bytes := by rw [List.length_append, l1, hb]
        rw [List.take_append_of_le_length (by rw [l2]; exact Nat.le_refl _), List.take_of_length_le (by rw [l2]; exact Nat.le_refl _)]
        rw [List.drop_append, l2, List.drop_of_length_le (by rw [l2]; omega), List.drop_drop]
        simp only [List.append_assoc, List.nil_append]
        rw [show A + bytes + (A + bytes + n * bytes - (A + bytes)) = A + (bytes + n * bytes) by omega]

/-! ### Reading with RREADY low (cocotb 1.x) -/

theorem asRBody_skip (c : AsCfg) (addr length bytes count : Nat) (s : Sim AsIn AsROut) (hs : s.phase ≠ .ro) (h : s.cur.rready ≠ .one)
    (i : AsIn) (r : List AsIn) (hr : s.rest = i :: r) :
    asRBody c addr length bytes count s = ([({ s.out with rvalid := .one }, s.cur)],
      .ok (if count - 1 = 0 then .inr () else .inl (count - 1)) ⟨.edge, { s.out with rvalid := .one, rlast := .zero }, s.cur, i, r⟩) := by
  unfold asRBody
  rw [bind_write _ _ _ hs, bind_readOnly _ _ _ (by exact hs), bind_inp_ro _ _ rfl]
  simp only []
  rw [if_neg h, bind_pure_run]
  unfold asRNext
  rw [bind_awaitEdge_cons _ _ i r (by exact hr), bind_write _ _ _ (by simp)]
  simp only []
  split <;> rfl

theorem asRBody_consumes (c : AsCfg) (addr length bytes : Nat) : Consumes (asRBody c addr length bytes) := by
  have hnext : ∀ (n : Nat) (s : Sim AsIn AsROut) (t : List (AsROut × AsIn)) (b' : Nat) (s' : Sim AsIn AsROut),
      asRNext n s = (t, .ok (.inl b') s') → s'.rest.length < s.rest.length := by
    intro n s t b' s' h
    unfold asRNext at h
    cases hr : s.rest with
    | nil => rw [bind_awaitEdge_nil _ _ hr] at h; cases h
    | cons i r =>
      rw [bind_awaitEdge_cons _ _ i r hr, bind_write _ _ _ (by simp)] at h
      simp only [] at h
      split at h
      · cases h
      · cases h; simp
  intro n s t b' s' h
  unfold asRBody at h
  by_cases hp : s.phase = .ro
  · rw [bind_write_ro _ _ _ hp] at h; cases h
  · rw [bind_write _ _ _ hp, bind_readOnly _ _ _ (by exact hp), bind_inp_ro _ _ rfl] at h
    simp only [] at h
    by_cases hv : s.cur.rready = .one
    · rw [if_pos hv, bind_run] at h
      obtain ⟨e, h1, _⟩ := asRData_ro c addr length bytes n ⟨.ro, { s.out with rvalid := .one }, s.prev, s.cur, s.rest⟩ rfl
      rw [h1] at h; cases h
    · rw [if_neg hv, bind_pure_run] at h
      rcases hq : asRNext n ⟨.ro, { s.out with rvalid := .one }, s.prev, s.cur, s.rest⟩ with ⟨t1, e1⟩
      rw [hq] at h
      have : e1 = .ok (.inl b') s' := by cases e1 <;> cases h <;> rfl
      subst this
      have := hnext _ _ _ _ _ hq
      exact this

/-- the beats for which RREADY is low are counted without being put on the bus -/
theorem asR_skip (c : AsCfg) (addr length bytes : Nat) (beats : List AsIn) :
    ∀ (s : Sim AsIn AsROut) (y : AsIn) (post : List AsIn), s.phase ≠ .ro → beats ≠ [] → s.cur :: s.rest = beats ++ y :: post →
    (∀ b ∈ beats, b.rready ≠ .one) → s.out.rlast = .zero →
    ∃ s', loop (asRBody c addr length bytes) beats.length s = (beats.map (fun b => ({ s.out with rvalid := .one }, b)), .ok () s') ∧
      s'.phase = .edge ∧ s'.out = { s.out with rvalid := .one } ∧ s'.cur = y ∧ s'.rest = post := by
  induction beats with
  | nil => intro s y post _ h; exact absurd rfl h
  | cons b beats ih =>
    intro s y post hs _ he hb hl
    rw [List.cons_append] at he
    injection he with e1 e2
    have hbr : s.cur.rready ≠ .one := by rw [e1]; exact hb b (by simp)
    have hout : ({ s.out with rvalid := .one, rlast := .zero } : AsROut) = { s.out with rvalid := .one } := by rw [← hl]
    rw [loop_unfold _ (asRBody_consumes c addr length bytes), bind_run]
    cases beats with
    | nil =>
      rw [List.nil_append] at e2
      rw [asRBody_skip c addr length bytes _ s hs hbr y post e2, hout]
      exact ⟨_, by rw [← e1]; rfl, rfl, rfl, rfl, rfl⟩
    | cons b2 beats =>
      rw [List.cons_append] at e2
      rw [asRBody_skip c addr length bytes _ s hs hbr b2 _ e2, hout, if_neg (by simp)]
      obtain ⟨s', h1, h2, h3, h4, h5⟩ := ih ⟨.edge, { s.out with rvalid := .one }, s.cur, b2, beats ++ y :: post⟩ y post (by simp) (by simp) rfl
        (fun b hb' => hb b (by simp [hb'])) hl
      simp only [andThen_ok, List.length_cons, Nat.add_sub_cancel] at h1 ⊢
      rw [h1]
      exact ⟨s', by rw [e1]; rfl, h2, h3, h4, h5⟩

theorem asRBeat (c : AsCfg) (addr length bytes count : Nat) (s : Sim AsIn AsROut) (hs : s.phase ≠ .ro)
    (hm : addr + (length - count + 1) * bytes ≤ s.out.mem.length) :
    asRData c addr length bytes count s = ([], .ok () { s with out := { s.out with
      rdata := beatBits c.bigEndian ((s.out.mem.drop (addr + (length - count) * bytes)).take bytes)
      rlast := if count = 1 then .one else s.out.rlast } }) := by
  have hmul : (length - count + 1) * bytes = (length - count) * bytes + bytes := Nat.succ_mul _ _
  have hslice : pySlice s.out.mem (addr + (length - count) * bytes) (addr + (length - count + 1) * bytes) =
      (s.out.mem.drop (addr + (length - count) * bytes)).take bytes := by
    unfold pySlice
    rw [List.take_drop, hmul, Nat.add_assoc]
  have hlen : ((s.out.mem.drop (addr + (length - count) * bytes)).take bytes).length = bytes := by
    rw [List.length_take, List.length_drop]; omega
  unfold asRData
  rw [bind_getOut]
  simp only []
  rw [hslice, Nat.mul_comm bytes 8, createBinaryBytes_eq _ bytes _ (by omega), bind_ofExcept_ok, bind_write _ _ _ hs, hlen, Nat.sub_self]
  simp only [List.replicate_zero, List.append_nil, List.nil_append, BinVal.bits]
  unfold beatBits Coro.when
  by_cases h1 : count = 1
  · subst h1
    simp only [beq_self_eq_true, if_true]
    rw [write_ok _ _ (by exact hs)]
  · rw [if_neg (by simpa using h1), if_neg h1]
    rfl

end CocotbBus
