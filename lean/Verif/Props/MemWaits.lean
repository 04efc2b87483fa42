import Verif.Proof.MemWaits

/-! # Property C114 for an `AvalonMemory` that inserts wait states (the default) -/

namespace CocotbBus
open Spec Coro

/-- the cycles of the memory after the current one -/
def laterCycles (c : MemCfg) (rand : Nat → Nat) (s : Sim MemIn MemOut) : List (MemOut × MemIn) := (cyclesOf (memRespond c rand s)).tail

theorem laterCycles_nil {c : MemCfg} {rand : Nat → Nat} {s : Sim MemIn MemOut} (h : s.rest = []) :
    laterCycles c rand s = [] ∧ (memRespond c rand s).2 = .blocked s := by
  unfold laterCycles
  rw [memRespond_unfold, memCycle]
  simp only [bind_assoc_run]
  rw [cyclesOf_nil _ _ h, bind_awaitEdge_nil _ _ h]
  exact ⟨rfl, rfl⟩

theorem laterCycles_ok {c : MemCfg} {rand : Nat → Nat} {s s' : Sim MemIn MemOut} {t : List (MemOut × MemIn)} {q : MemOut × MemIn} (h : memCycle c rand s = (q :: t, .ok () s')) :
    laterCycles c rand s = t ++ (s'.out, s'.cur) :: laterCycles c rand s' ∧ (memRespond c rand s).2 = (memRespond c rand s').2 := by
  obtain ⟨-, h2, h3⟩ := respond_step h
  refine ⟨?_, h3⟩
  unfold laterCycles
  rw [h2, cycles_cons]
  rfl

theorem laterCycles_blocked {c : MemCfg} {rand : Nat → Nat} {s s' : Sim MemIn MemOut} {t : List (MemOut × MemIn)} {q : MemOut × MemIn} (h : memCycle c rand s = (q :: t, .blocked s')) :
    laterCycles c rand s = t ++ [(s'.out, s'.cur)] ∧ (memRespond c rand s).2 = .blocked s' := by
  unfold laterCycles
  rw [memRespond_unfold, bind_run, h, andThen_blocked]
  exact ⟨rfl, rfl⟩

theorem laterCycles_err {c : MemCfg} {rand : Nat → Nat} {s s' : Sim MemIn MemOut} {t : List (MemOut × MemIn)} {e : PyErr} (h : memCycle c rand s = (t, .err e s')) :
    (memRespond c rand s).2 = .err e s' := by
  rw [memRespond_unfold, bind_run, h, andThen_err]

theorem memCycle_cons (c : MemCfg) (rand : Nat → Nat) (s : Sim MemIn MemOut) (h : s.rest ≠ []) : ∃ q t e, memCycle c rand s = (q :: t, e) := by
  unfold memCycle
  cases hr : s.rest with
  | nil => exact absurd hr h
  | cons i r => rw [bind_awaitEdge_cons _ _ i r hr]; exact ⟨_, _, _, rfl⟩

theorem memRespond_good (c : MemCfg) (rand : Nat → Nat) : Good (memRespond c rand) := by
  refine Good.loop _ ?_ (fun _ => Good.bind (memCycle_good c rand) fun _ => Good.pure _) ()
  intro b s t b' s' h
  unfold memCycle at h
  simp only [bind_assoc] at h
  exact consumes_of_edge s _ (Good.bind (memDoResponse_good c) fun _ => Good.bind (Good.readOnly _) fun _ =>
    Good.bind (memReadPart_good c rand) fun _ => Good.bind (memWritePart_good c rand) fun _ => Good.pure _) t b' s' h

/-- the cycles have the inputs that were to come -/
theorem laterCycles_in (c : MemCfg) (rand : Nat → Nat) (s : Sim MemIn MemOut) : (laterCycles c rand s).map Prod.snd <+: s.rest := by
  have h := (memRespond_good c rand s).1
  unfold laterCycles cyclesOf
  generalize memRespond c rand s = r at h ⊢
  obtain ⟨t, e⟩ := r
  cases t with
  | nil =>
    simp
  | cons q t =>
    simp only [List.map_cons, List.cons_append, List.cons.injEq] at h
    refine ⟨e.sim.rest, ?_⟩
    rw [h.2]
    simp

/-- the first cycle of a read burst shows waitrequest -/
theorem laterCycles_read {c : MemCfg} (hc : BurstMem c) (rand : Nat → Nat) (s : Sim MemIn MemOut) (hresp : s.out.responses = [])
    (i : MemIn) (r : List MemIn) (hr : s.rest = i :: r) (hrd : i.read = .one)
    (ha : isResolvable i.address = true) (hb : isResolvable i.burstcount = true) :
    ∃ o l, laterCycles c rand s = (o, i) :: l ∧ o.waitrequest = .one := by
  have hsz : c.size ≠ 0 := by have := hc.bytes; have := hc.pos; unfold MemCfg.size; omega
  have hpop : memPop c s.out = { s.out with responses := [], readdatavalid := .zero } := by simp [memPop, hresp, hc.rdv]
  unfold laterCycles
  rw [memRespond_unfold, memCycle]
  simp only [bind_assoc_run]
  rw [cyclesOf_cons _ _ i r hr, List.tail_cons]
  simp only [bind_assoc]
  rw [bind_silent _ _ _ _ _ (memDoResponse_run c (by have := hc.bytes; omega) ⟨.edge, s.out, s.cur, i, r⟩ (by simp) (by simp [hresp])),
    bind_readOnly _ _ _ (by simp), hpop]
  unfold memReadPart
  simp only [hc.read.1, hc.read.2, Coro.when, if_true, Bool.not_true, Bool.false_eq_true, if_false, pure_bind, bind_assoc]
  rw [bind_inp_ro _ _ rfl]
  simp only [hrd, if_true, MemCfg.burstRead, hc.burst, hc.rdv, Bool.and_self]
  unfold memBurstRead
  simp only [bind_assoc]
  rw [bind_inp_ro _ _ rfl, toUnsigned_ok _ ha, bind_ofExcept_ok]
  simp only [show (c.size == 0) = false by simpa using hsz, Coro.when, Bool.false_eq_true, if_false, pure_bind]
  rw [toUnsigned_ok _ hb, bind_ofExcept_ok]
  simp only [show c.beW.isNone = false by have := hc.be; cases h : c.beW <;> simp_all, Bool.false_eq_true, if_false, pure_bind]
  rw [bind_nextStep, bind_write _ _ _ (by simp)]
  cases r with
  | nil => rw [cyclesOf_nil _ _ rfl]; exact ⟨_, [], rfl, rfl⟩
  | cons j r => rw [cyclesOf_cons _ _ j r rfl]; exact ⟨_, _, rfl, rfl⟩

/-- the pins of the cycles -/
def laterPins (l : List (MemOut × MemIn)) : List (LogicArray × Logic × Logic) := l.map (fun q => memPins q.1)

theorem silent_words (l : List (MemOut × MemIn)) (h : ∀ q ∈ l, Silent q.1) : wordsShown (laterPins l) = [] := by
  apply wordsShown_none
  intro p hp
  obtain ⟨q, hq, rfl⟩ := List.mem_map.1 hp
  exact (h q hq).1

/-- what is left after a write burst -/
theorem write_ends {gaps : Bool} {addr : Nat} {words : List Nat} {block l t x : List (MemOut × MemIn)} (hw : MemWriteSeen gaps addr words block)
    (h : block ++ l = t ++ x) (he : EndsWait words.length t) (hn : (acceptedBeats t).length = words.length) :
    ∃ e, t = block ++ e ∧ l = e ++ x ∧ (∀ q ∈ e, q.1.waitrequest = .one) ∧ acceptedBeats t = words := by
  obtain ⟨b, qb, rfl, hb1, hb2⟩ := hw.ends
  have hqb := (accepted_one qb).2 ⟨hb1, hb2⟩
  have hpos : 0 < words.length := by
    rw [← hw.beats, acceptedBeats_append, List.length_append]
    have := List.length_pos_iff.2 hqb
    omega
  obtain ⟨a, e, rfl, h1, -, h3⟩ := he
  obtain ⟨a, qa, rfl, hqa⟩ := h3 hpos
  rw [acceptedBeats_append, accepted_waiting e h1, List.append_nil] at hn ⊢
  have hs := same_beginning (b ++ [qb] ++ l) a b qa qb (by rw [h, List.append_assoc]; exact List.prefix_append _ _) (List.prefix_append _ _) hqa hqb
    (by rw [hn, hw.beats])
  rw [hs]
  refine ⟨e, rfl, ?_, h1, hw.beats⟩
  rw [hs, List.append_assoc (b ++ [qb])] at h
  exact List.append_cancel_left h

/-- the beats accepted in the cycles of some bursts -/
theorem seen_beats {c : MemCfg} {gaps : Bool} {l : List (MemOut × MemIn)} {ops : List BurstOp} (h : SeenOps c gaps l ops) : acceptedBeats l = wordsWritten ops := by
  induction h with
  | none => rfl
  | idle q l ops hq _ ih => rw [acceptedBeats_cons, acceptedBeats_none [q] (by simpa using hq.2), ih]; rfl
  | write addr words cycles l ops hw _ ih => rw [acceptedBeats_append, hw.beats, ih]; rfl
  | read addr count cycles l ops hr _ ih => rw [acceptedBeats_append, acceptedBeats_none cycles hr.noWrite, ih]; rfl

theorem waits_run {c : MemCfg} (hc : BurstMem c) (hwb : c.writeBurstWaitReq = true) (rand : Nat → Nat) (gaps : Bool) (hz : gaps = true → NeverZeroWait c rand) :
    ∀ (n : Nat) (s : Sim MemIn MemOut) (ops : List BurstOp), s.rest.length = n → s.out.responses = [] → WholeWords c s.out.mem →
    (∀ i ∈ s.rest, BeatClean i) → (∀ e s', (memRespond c rand s).2 ≠ .err e s') → SeenOps c gaps (laterCycles c rand s) ops → (∀ op ∈ ops, op.Aligned c) →
    wordsShown (laterPins (laterCycles c rand s)) = wordsRead c s.out.mem ops ∧
    ∃ s', (memRespond c rand s).2 = .blocked s' ∧ s'.out.mem = memAfter c s.out.mem ops := by
  intro n
  induction n using Nat.strongRecOn with
  | ind n ih =>
  intro s ops hn hresp hwhole hclean hnoerr hseen hal
  have hin := laterCycles_in c rand s
  cases hr : s.rest with
  | nil =>
    obtain ⟨h1, h2⟩ := laterCycles_nil (c := c) (rand := rand) hr
    rw [h1] at hseen
    rw [seen_nil hseen, h1, h2]
    exact ⟨rfl, s, rfl, rfl⟩
  | cons i r =>
  obtain ⟨q0, t0, e0, hx⟩ := memCycle_cons c rand s (by rw [hr]; simp)
  have hgood := (memCycle_good c rand s).1
  rw [hx, hr] at hgood
  simp only [List.map_cons, List.cons_append, List.cons.injEq] at hgood
  have hhead : ∀ q l, laterCycles c rand s = q :: l → q.2 = i := by
    intro q l h
    rw [h, hr] at hin
    obtain ⟨z, hz⟩ := hin
    exact (List.cons.inj hz).1
  have hrec : ∀ s' : Sim MemIn MemOut, e0 = .ok () s' → s'.out.responses = [] → WholeWords c s'.out.mem → ∀ ops', SeenOps c gaps (laterCycles c rand s') ops' →
      (∀ op ∈ ops', op.Aligned c) → laterCycles c rand s = t0 ++ (s'.out, s'.cur) :: laterCycles c rand s' ∧
      wordsShown (laterPins (laterCycles c rand s')) = wordsRead c s'.out.mem ops' ∧
      ∃ s2, (memRespond c rand s).2 = .blocked s2 ∧ s2.out.mem = memAfter c s'.out.mem ops' := by
    intro s' he h1 h2 ops' h3 h4
    subst he
    obtain ⟨a1, a2⟩ := laterCycles_ok hx
    have hsub : s'.rest.length < n := by
      have := congrArg List.length hgood.2
      rw [← hn, hr]
      simp only [End.sim, List.length_append, List.length_cons] at this ⊢
      omega
    have hcl : ∀ j ∈ s'.rest, BeatClean j := by
      intro j hj
      apply hclean
      rw [hr, hgood.2]
      simp [End.sim, hj]
    obtain ⟨b1, b2⟩ := ih _ hsub s' ops' rfl h1 h2 hcl (by rw [← a2]; exact hnoerr) h3 h4
    exact ⟨a1, b1, by rw [a2]; exact b2⟩
  generalize hT : laterCycles c rand s = T at hseen
  rw [hT] at hin hhead hrec
  cases hseen with
  | none =>
    exfalso
    have hne : ∃ q l, laterCycles c rand s = q :: l := by
      cases e0 with
      | ok a s' => rw [(laterCycles_ok hx).1]; cases t0 <;> exact ⟨_, _, rfl⟩
      | blocked s' => rw [(laterCycles_blocked hx).1]; cases t0 <;> exact ⟨_, _, rfl⟩
      | err e s' => exact absurd (laterCycles_err hx) (hnoerr e s')
    obtain ⟨q, l, h⟩ := hne
    rw [hT] at h
    cases h
  | idle q l _ hq hl =>
    have hi := hhead q l rfl
    obtain ⟨s', h1, h2, h3, h4⟩ := quiet_step hc rand s hresp i r hr (by rw [← hi]; exact hq)
    rw [hx] at h1
    obtain ⟨h0, he⟩ := Prod.mk.inj h1
    obtain ⟨-, ht0⟩ := List.cons.inj h0
    subst he ht0
    obtain ⟨a1, -⟩ := laterCycles_ok hx
    rw [hT, List.nil_append] at a1
    obtain ⟨a2, a3⟩ := List.cons.inj a1
    rw [a3] at hl
    obtain ⟨-, b1, b2⟩ := hrec s' rfl (by rw [h2]) (by rw [h2]; exact hwhole) ops hl hal
    rw [h2] at b1 b2
    refine ⟨?_, b2⟩
    rw [← b1, a2, ← List.singleton_append, laterPins, List.map_append, wordsShown_append, ← laterPins, silent_words _ (by simp [Silent, h2]), List.nil_append, a3]
    rfl
  | write addr words block l ops hw hl =>
    obtain ⟨q, l1, hb, hq⟩ := hw.starts
    have hi := hhead q (l1 ++ l) (by rw [hb]; rfl)
    obtain ⟨k1, k2, k3, k4⟩ := hw.asks [] q l1 hb rfl
    rw [hi] at hq k1 k2 k3 k4
    have hnr := hw.noRead q (by rw [hb]; simp)
    rw [hi] at hnr
    have hfirst : rand s.out.drawn % 4 ≠ 0 := by
      intro h
      obtain ⟨s', h1, -⟩ := C48_violated_first_wait c hc rand s hresp i r hr hnr hq hwb h
      exact hnoerr _ s' (by rw [h1])
    have hpos : 0 < words.length := by
      obtain ⟨b, qb, hb', hb1, hb2⟩ := hw.ends
      rw [← hw.beats, hb', acceptedBeats_append, List.length_append]
      have := List.length_pos_iff.2 ((accepted_one qb).2 ⟨hb1, hb2⟩)
      omega
    have hpop : memPop c s.out = { s.out with responses := [], readdatavalid := .zero } := by simp [memPop, hresp, hc.rdv]
    have hrun := memCycle_write_run hc rand s hresp i r hr hnr hq
    have hsil := memBurstWrite_silent c rand ⟨.ro, memPop c s.out, s.cur, i, r⟩ (by rw [hpop]; exact ⟨rfl, rfl⟩)
    have hwait := memBurstWrite_wait c hwb rand ⟨.ro, memPop c s.out, s.cur, i, r⟩
    have ho := memBurstWrite_outcome hc gaps rand ⟨.ro, memPop c s.out, s.cur, i, r⟩ rfl (fun j hj => hclean j (by rw [hr]; exact hj)) k1 k3
      (by rw [k4]; exact hpos) (fun _ => by rw [hpop]; exact hfirst) (fun h => by rw [hwb] at h; cases h)
      (by
        cases gaps with
        | false => exact Or.inl rfl
        | true => exact Or.inr ⟨hwb, noZeroWait_of_never (hz rfl) _ _⟩)
    rw [hx] at hrun
    simp only at hrun ho
    rw [k2, k4, show (memPop c s.out).mem = s.out.mem by rw [hpop]] at ho
    generalize memBurstWrite c rand ⟨.ro, memPop c s.out, s.cur, i, r⟩ = y at hrun hsil hwait ho
    obtain ⟨y1, y2⟩ := y
    obtain ⟨hy, rfl⟩ := Prod.mk.inj hrun
    obtain ⟨-, rfl⟩ := List.cons.inj hy
    have hmk := mk_more gaps l block words.length (by rw [hw.beats]) (by rw [hb]; simp) hw.keeps
    have hwalign : addr % (c.width / 8) = 0 := hal (.write addr words) (by simp)
    cases e0 with
    | err e s' => exact absurd (laterCycles_err hx) (hnoerr e s')
    | blocked s' =>
      obtain ⟨a1, a2⟩ := laterCycles_blocked hx
      rw [hT] at a1
      rw [a1] at hmk
      obtain ⟨-, -, o3⟩ := ho hmk
      obtain ⟨o4, o5, -, o6⟩ := o3 s' rfl
      have hcy : cyclesOf ((t0, .blocked s') : Res MemIn MemOut Unit) = block ++ l := a1.symm
      rw [hcy] at o4 o5 o6
      have hlen : (acceptedBeats (block ++ l)).length = words.length := by
        rw [acceptedBeats_append, List.length_append, hw.beats] at o4 ⊢
        omega
      obtain ⟨e, w1, w2, w3, w4⟩ := write_ends (l := l) (t := block ++ l) (x := []) hw (by rw [List.append_nil]) (o6 hlen) hlen
      rw [w2] at hl
      have hops := seen_nil (seen_dropWaits e hl w3)
      rw [w4] at o5
      rw [hops, a2]
      refine ⟨?_, s', rfl, o5⟩
      rw [a1, silent_words]
      · rfl
      · intro z hz'
        rcases List.mem_append.1 hz' with h | h
        · exact hsil.1 z h
        · rw [List.mem_singleton.1 h]; exact hsil.2
    | ok a s' =>
      obtain ⟨a1, -⟩ := laterCycles_ok hx
      rw [hT] at a1
      have hmk' : MasterKeeps gaps words.length (cyclesOf ((t0, .ok a s') : Res MemIn MemOut Unit)) := by
        apply masterKeeps_append gaps _ (laterCycles c rand s')
        rw [a1] at hmk
        simpa [cyclesOf, End.sim] using hmk
      obtain ⟨-, o2, -⟩ := ho hmk'
      obtain ⟨o3, o4, -, o5⟩ := o2 a s' rfl
      obtain ⟨e, w1, w2, w3, w4⟩ := write_ends hw a1 o5 o3
      rw [w4] at o4
      rw [w2, show e ++ (s'.out, s'.cur) :: laterCycles c rand s' = (e ++ [(s'.out, s'.cur)]) ++ laterCycles c rand s' by simp] at hl
      have hseen' := seen_dropWaits _ hl (by
        intro z hz'
        rcases List.mem_append.1 hz' with h | h
        · exact w3 z h
        · rw [List.mem_singleton.1 h]; exact hwait s' rfl)
      obtain ⟨-, b1, b2⟩ := hrec s' rfl hsil.2.2 (by rw [o4]; exact wholeWords_store c hc _ hwhole addr hwalign words) ops hseen' (fun op hop => hal op (by simp [hop]))
      rw [o4] at b1 b2
      refine ⟨?_, b2⟩
      rw [a1, show t0 ++ (s'.out, s'.cur) :: laterCycles c rand s' = (t0 ++ [(s'.out, s'.cur)]) ++ laterCycles c rand s' by simp, laterPins, List.map_append,
        wordsShown_append, ← laterPins, silent_words, List.nil_append]
      · exact b1
      · intro z hz'
        rcases List.mem_append.1 hz' with h | h
        · exact hsil.1 z h
        · rw [List.mem_singleton.1 h]; exact hsil.2
  | read addr count block l ops hrd hl =>
    obtain ⟨⟨w, acc, later, rfl, h1, h2, h3, h4, h5⟩, h6⟩ := hrd
    have hq : ∃ q l', (w ++ acc :: later) ++ l = q :: l' ∧ q ∈ w ++ [acc] := by
      cases w with
      | nil => exact ⟨acc, _, rfl, by simp⟩
      | cons q w => exact ⟨q, _, rfl, by simp⟩
    obtain ⟨q, l', hq1, hq2⟩ := hq
    have hi := hhead q l' hq1
    obtain ⟨g1, g2, g3, g4, g5⟩ := h3 q hq2
    rw [hi] at g1 g2 g3 g4 g5
    obtain ⟨o, l2, z1, z2⟩ := laterCycles_read hc rand s hresp i r hr g1 g2 g4
    have hwpos : 1 ≤ w.length := by
      cases w with
      | nil =>
        rw [hT] at z1
        have := congrArg (fun x => x.1.waitrequest) (List.cons.inj z1).1
        simp only [h2, z2] at this
        cases this
      | cons _ _ => simp
    have hblen : (w ++ acc :: later).length = w.length + 1 + later.length := by simp; omega
    have hnw : ∀ j, s.rest[c.readLatency + 1 + bitsToNat i.burstcount]? = some j → j.write ≠ .one := by
      intro j hj
      obtain ⟨z, hz'⟩ := hin
      rw [← hz', List.map_append, List.append_assoc, List.getElem?_append_left (by rw [List.length_map, hblen, g5]; omega)] at hj
      obtain ⟨x, hx1, hx2⟩ := List.mem_map.1 (List.mem_of_getElem? hj)
      rw [← hx2]
      exact h6 x hx1
    have hal' : addr % (c.width / 8) = 0 := hal (.read addr count) (by simp)
    have hthere : ∀ k < bitsToNat i.burstcount, WordThere c s.out.mem (bitsToNat i.address + k * (c.width / 8)) := by
      intro k _
      apply hwhole
      rw [g3, Nat.add_mul_mod_self_right, hal']
    have hsh := memCycle_read_shows hc rand s hresp i r hr g1 hnw g2 g4 (by rw [g3]; exact hal') hthere
    have hok := (C47_burst_read c hc rand s hresp i r hr g1 hnw g2 g4 (by rw [g3]; exact hal') hthere).2.2.2
    have hpl := burstReadPins_length c s.out.mem s.out.readdata (bitsToNat i.address) (bitsToNat i.burstcount)
    have hB1 : (burstReadPins c s.out.mem s.out.readdata (bitsToNat i.address) (bitsToNat i.burstcount))[1]? = some (s.out.readdata, .zero, .one) := rfl
    have hB2 : (burstReadPins c s.out.mem s.out.readdata (bitsToNat i.address) (bitsToNat i.burstcount))[2]? = some (s.out.readdata, .zero, .zero) := rfl
    have hws := wordsShown_burst c s.out.mem s.out.readdata i
    rw [hx] at hsh hok
    generalize burstReadPins c s.out.mem s.out.readdata (bitsToNat i.address) (bitsToNat i.burstcount) = B at *
    have two : (∀ (k : Nat) (q : MemOut × MemIn) (p : LogicArray × Logic × Logic), ((w ++ acc :: later) ++ l)[k]? = some q → B[k]? = some p → memPins q.1 = p) → w.length = 2 := by
      intro hB
      have hacc : ((w ++ acc :: later) ++ l)[w.length]? = some acc := by simp
      by_contra hne
      by_cases hlt : w.length = 1
      · rw [hlt] at hacc
        have := congrArg (fun p => p.2.2) (hB 1 _ _ hacc hB1)
        simp only [memPins, h2] at this
        cases this
      · have h2w : 2 < w.length := by omega
        have hw2 : ((w ++ acc :: later) ++ l)[2]? = some w[2] := by
          rw [List.append_assoc, List.getElem?_append_left h2w, List.getElem?_eq_getElem h2w]
        have := congrArg (fun p => p.2.2) (hB 2 _ _ hw2 hB2)
        simp only [memPins, h1 _ (List.getElem_mem h2w)] at this
        cases this
    cases e0 with
    | err e s' => exact absurd rfl (hsh.err e s')
    | blocked s' =>
      exfalso
      obtain ⟨a1, -⟩ := laterCycles_blocked hx
      rw [hT] at a1
      have hpre : laterPins ((w ++ acc :: later) ++ l) <+: B := by
        rw [a1]
        have := hsh.pre
        simp only [memShown, List.map_cons, List.cons_append] at this
        obtain ⟨z, hz'⟩ := this
        rw [List.cons_append] at hz'
        refine ⟨z, ?_⟩
        rw [← (List.cons.inj hz').2]
        simp [laterPins, End.sim]
      have h2w := two (by
        intro k q p hk hp
        obtain ⟨z, hz'⟩ := hpre
        have hkl : k < (laterPins ((w ++ acc :: later) ++ l)).length := by
          rw [laterPins, List.length_map]
          exact (List.getElem?_eq_some_iff.1 hk).1
        rw [← hz', List.getElem?_append_left hkl, laterPins, List.getElem?_map, hk] at hp
        exact Option.some.inj hp)
      have hl1 : ((w ++ acc :: later) ++ l).length ≤ s.rest.length := by simpa using hin.length_le
      rw [List.length_append, hblen] at hl1
      have := hok (by rw [g5]; omega)
      cases this
    | ok a s' =>
      obtain ⟨m1, m2, m3, -, -, -⟩ := hsh.ok a s' rfl
      obtain ⟨a1, -⟩ := laterCycles_ok hx
      rw [hT] at a1
      have hA : laterPins (t0 ++ [(s'.out, s'.cur)]) = B := by
        simp only [memShown, List.map_cons, List.cons_append] at m1
        rw [← (List.cons.inj m1).2]
        simp [laterPins, End.sim]
      have hAl : (t0 ++ [(s'.out, s'.cur)]).length = c.readLatency + 3 + count := by
        rw [← g5, ← hpl, ← hA, laterPins, List.length_map]
      have a1' : (w ++ acc :: later) ++ l = (t0 ++ [(s'.out, s'.cur)]) ++ laterCycles c rand s' := by rw [a1]; simp
      have h2w := two (by
        intro k q p hk hp
        have hkl : k < (t0 ++ [(s'.out, s'.cur)]).length := by
          have := (List.getElem?_eq_some_iff.1 hp).1
          rw [hpl, g5] at this
          omega
        rw [a1', List.getElem?_append_left hkl] at hk
        rw [← hA, laterPins, List.getElem?_map, hk] at hp
        exact Option.some.inj hp)
      have hdrop : laterCycles c rand s' = later.drop (c.readLatency + count) ++ l := by
        have e := congrArg (List.drop (c.readLatency + 3 + count)) a1'
        rw [← hAl, List.drop_left, hAl, List.drop_append_of_le_length (by rw [hblen]; omega),
          show c.readLatency + 3 + count = w.length + ((c.readLatency + count) + 1) by omega, ← List.drop_drop, List.drop_left, List.drop_succ_cons] at e
        exact e.symm
      have hseen' : SeenOps c gaps (laterCycles c rand s') ops := by
        rw [hdrop]
        refine seen_idles hl _ ?_
        intro x hx'
        have hm := List.mem_of_mem_drop hx'
        exact ⟨h4 x hm, h6 x (by simp [hm])⟩
      obtain ⟨-, b1, b2⟩ := hrec s' rfl m2 (by rw [m3]; exact hwhole) ops hseen' (fun op hop => hal op (by simp [hop]))
      rw [m3] at b1 b2
      refine ⟨?_, b2⟩
      rw [a1', laterPins, List.map_append, wordsShown_append, ← laterPins, ← laterPins, hA, hws, b1, wordsRead, wordsAsked, g3, g5]

/-- C114, the part that holds with the default properties, that is with random waits. Whatever the cycles with a request look like, if they
are, given the waitrequest the memory shows, some write and read bursts one after the other (directly or with cycles without request between them), then
the words returned are in order those that the writes before have left in memory, and in the end the memory contains what was written: provided the memory has not died
(`C48_violated_first_wait`), and the master makes no gaps within a write burst or no wait of zero cycles is drawn. -/
theorem C114_waits_partial (c : MemCfg) (hc : BurstMem c) (hwb : c.writeBurstWaitReq = true) (rand : Nat → Nat) (gaps : Bool)
    (hzero : gaps = true → NeverZeroWait c rand) (s : Sim MemIn MemOut)
    (hresp : s.out.responses = []) (hmem : WholeWords c s.out.mem) (hclean : ∀ i ∈ s.rest, BeatClean i)
    (ops : List BurstOp) (hal : ∀ op ∈ ops, op.Aligned c) :
    let r := memRespond c rand s
    (∀ e s', r.2 ≠ .err e s') → SeenOps c gaps (cyclesOf r).tail ops →
    wordsShown (memShown r).tail = wordsRead c s.out.mem ops ∧
    acceptedBeats (cyclesOf r).tail = wordsWritten ops ∧
    ∃ s', r.2 = .blocked s' ∧ s'.out.mem = memAfter c s.out.mem ops := by
  intro r hne hseen
  obtain ⟨h1, h2⟩ := waits_run hc hwb rand gaps hzero _ s ops rfl hresp hmem hclean hne hseen hal
  refine ⟨?_, seen_beats hseen, h2⟩
  rw [← h1]
  have : memShown r = laterPins (cyclesOf r) := by simp [memShown, laterPins, cyclesOf]
  rw [this, laterPins, laterPins, laterCycles, List.map_tail]

/-! A 16-bit memory with the default properties: two words are written to address 2 (with a wait of two cycles after the first), the second is overwritten at once by
another burst, and both are read at once. To see that the cycles are those bursts, they are checked by a program. -/

def asksB (addr n : Nat) : List (MemOut × MemIn) → Bool
  | [] => true
  | q :: l => isResolvable q.2.address && bitsToNat q.2.address == addr && isResolvable q.2.burstcount && bitsToNat q.2.burstcount == n &&
      (!(acceptedBeats [q]).isEmpty || asksB addr n l)

theorem asksB_sound (addr n : Nat) : ∀ l, asksB addr n l = true → ∀ a q b, l = a ++ q :: b → acceptedBeats a = [] →
    isResolvable q.2.address = true ∧ bitsToNat q.2.address = addr ∧ isResolvable q.2.burstcount = true ∧ bitsToNat q.2.burstcount = n
  | [], _, a, q, b, hl, _ => by cases a <;> cases hl
  | x :: l, h, a, q, b, hl, ha => by
    simp only [asksB, Bool.and_eq_true, beq_iff_eq, Bool.or_eq_true, Bool.not_eq_true', List.isEmpty_eq_false_iff] at h
    cases a with
    | nil =>
      obtain ⟨rfl, rfl⟩ := List.cons.inj hl
      exact ⟨h.1.1.1.1, h.1.1.1.2, h.1.1.2, h.1.2⟩
    | cons y a =>
      rw [List.cons_append] at hl
      obtain ⟨rfl, hl'⟩ := List.cons.inj hl
      rw [acceptedBeats_cons, List.append_eq_nil_iff] at ha
      rcases h.2 with h | h
      · exact absurd ha.1 h
      · exact asksB_sound addr n l h a q b hl' ha.2

def writeSeenB (gaps : Bool) (addr : Nat) (words : List Nat) (l : List (MemOut × MemIn)) : Bool :=
  l.head?.any (fun q => q.2.write == .one) && l.getLast?.any (fun q => q.2.write == .one && q.1.waitrequest == .zero) && l.all (fun q => q.2.read != .one) &&
    asksB addr words.length l && decide (MasterKeeps gaps words.length l) && acceptedBeats l == words

theorem writeSeenB_sound {gaps : Bool} {addr : Nat} {words : List Nat} {l : List (MemOut × MemIn)} (h : writeSeenB gaps addr words l = true) :
    MemWriteSeen gaps addr words l := by
  simp only [writeSeenB, Bool.and_eq_true, Option.any_eq_true, beq_iff_eq, List.all_eq_true, bne_iff_ne, decide_eq_true_eq] at h
  obtain ⟨⟨⟨⟨⟨⟨q, h1, h1'⟩, q2, h2, h2', h2''⟩, h3⟩, h4⟩, h5⟩, h6⟩ := h
  refine ⟨?_, ?_, h3, asksB_sound _ _ _ h4, h5, h6⟩
  · cases l with
    | nil => cases h1
    | cons x l => cases h1; exact ⟨_, _, rfl, h1'⟩
  · rw [List.getLast?_eq_some_iff] at h2
    obtain ⟨a, rfl⟩ := h2
    exact ⟨a, q2, rfl, h2', h2''⟩

def readSeenB (c : MemCfg) (addr count waits : Nat) (l : List (MemOut × MemIn)) : Bool :=
  let ask : MemOut × MemIn → Bool := fun q => q.2.read == .one && isResolvable q.2.address && bitsToNat q.2.address == addr && isResolvable q.2.burstcount && bitsToNat q.2.burstcount == count
  (l.take waits).all (fun q => q.1.waitrequest == .one && ask q) &&
    (match l.drop waits with
     | [] => false
     | q :: later => q.1.waitrequest == .zero && ask q && later.all (fun q => q.2.read != .one) && decide (c.readLatency + count ≤ later.length)) &&
    l.all (fun q => q.2.write != .one)

theorem readSeenB_sound {c : MemCfg} {addr count waits : Nat} {l : List (MemOut × MemIn)} (h : readSeenB c addr count waits l = true) : MemReadSeen c addr count l := by
  simp only [readSeenB, Bool.and_eq_true, List.all_eq_true, beq_iff_eq, bne_iff_ne] at h
  obtain ⟨⟨h1, h2⟩, h3⟩ := h
  refine ⟨?_, h3⟩
  cases hd : l.drop waits with
  | nil => rw [hd] at h2; cases h2
  | cons q later =>
    rw [hd] at h2
    simp only [Bool.and_eq_true, List.all_eq_true, beq_iff_eq, bne_iff_ne, decide_eq_true_eq] at h2
    refine ⟨l.take waits, q, later, by rw [← hd, List.take_append_drop], fun x hx => (h1 x hx).1, h2.1.1.1, ?_, h2.1.2, h2.2⟩
    intro x hx
    rcases List.mem_append.1 hx with h | h
    · obtain ⟨-, ⟨⟨⟨a, b⟩, c⟩, d⟩, e⟩ := h1 x h
      exact ⟨a, b, c, d, e⟩
    · rw [List.mem_singleton.1 h]
      obtain ⟨⟨⟨a, b⟩, c⟩, d⟩ := h2.1.1.2
      exact ⟨a.1, a.2, b, c, d⟩

def exWaitsIn : List MemIn :=
  [{}, exWrite 2 2 0x2211, exWrite 2 2 0x4433, exWrite 2 2 0x4433, exWrite 2 2 0x4433, exWrite 4 1 0x6655, exWrite 4 1 0x6655,
    exReadN 2 2, exReadN 2 2, exReadN 2 2, exReadN 2 2, {}, {}, {}, {}]
def exWaitsRand (k : Nat) : Nat := [1, 4, 2].getD k 1
def exWaitsRun : Res MemIn MemOut Unit := memRespond exBurstCfg exWaitsRand (exOpsSim exWaitsIn)

theorem exWaits_seen : SeenOps exBurstCfg false (cyclesOf exWaitsRun).tail [.write 2 [0x2211, 0x4433], .write 4 [0x6655], .read 2 2] := by
  have split : ∀ l : List (MemOut × MemIn), l.length = 15 → l = l.take 1 ++ ((l.drop 1).take 4 ++ ((l.drop 5).take 2 ++ (l.drop 7 ++ []))) := by
    intro l h
    have h1 : l.drop 5 = (l.drop 5).take 2 ++ l.drop 7 := by
      conv_lhs => rw [← List.take_append_drop 2 (l.drop 5), List.drop_drop]
    have h2 : l.drop 1 = (l.drop 1).take 4 ++ l.drop 5 := by
      conv_lhs => rw [← List.take_append_drop 4 (l.drop 1), List.drop_drop]
    rw [List.append_nil, ← h1, ← h2, List.take_append_drop]
  rw [split (cyclesOf exWaitsRun).tail (by decide +kernel)]
  refine seen_idles (.write _ _ _ _ _ (writeSeenB_sound ?_) (.write _ _ _ _ _ (writeSeenB_sound ?_) (.read _ _ _ _ _ (readSeenB_sound (waits := 3) ?_) .none))) _ ?_
  · decide +kernel
  · decide +kernel
  · decide +kernel
  · have : ((cyclesOf exWaitsRun).tail.take 1).all (fun q => q.2.read != .one && q.2.write != .one) = true := by decide +kernel
    intro q hq
    simpa [MemQuiet] using List.all_eq_true.1 this q hq

example : wordsShown (memShown exWaitsRun).tail = [natToBits 16 0x2211, natToBits 16 0x6655] ∧ acceptedBeats (cyclesOf exWaitsRun).tail = [0x2211, 0x4433, 0x6655] := by
  have hno : (match exWaitsRun.2 with | .err _ _ => false | _ => true) = true := by decide +kernel
  obtain ⟨h1, h2, -⟩ := C114_waits_partial exBurstCfg ⟨rfl, by decide, rfl, rfl, rfl, ⟨rfl, rfl⟩, ⟨rfl, rfl⟩⟩ rfl exWaitsRand false (by simp)
    (exOpsSim exWaitsIn) rfl (fun a _ => Or.inl rfl)
    (by
      have : exWaitsIn.all (fun i => (i.write == .zero || i.write == .one) && (i.write != .one || isResolvable i.writedata)) = true := by decide +kernel
      intro i hi
      have := List.all_eq_true.1 this i hi
      simp only [Bool.and_eq_true, Bool.or_eq_true, beq_iff_eq, bne_iff_ne] at this
      exact ⟨this.1, fun h => this.2.resolve_left (fun h' => h' h)⟩)
    _ (by
      intro op hop
      simp only [List.mem_cons, List.not_mem_nil, or_false] at hop
      rcases hop with rfl | rfl | rfl <;> rfl)
    (by intro e s' h; rw [show (memRespond exBurstCfg exWaitsRand (exOpsSim exWaitsIn)).2 = exWaitsRun.2 from rfl] at h; rw [h] at hno; cases hno) exWaits_seen
  rw [show exWaitsRun = _ from rfl] at *
  exact ⟨h1.trans (by decide +kernel), h2.trans (by decide +kernel)⟩

end CocotbBus
