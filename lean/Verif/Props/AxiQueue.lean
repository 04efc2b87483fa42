import Verif.Proof.AxiQueue

/-!
# C63: concurrent transactions of `AXI4Master`
-/

namespace CocotbBus
open Spec

/-- Executable form of `InOrderSlave`, for examples. -/
def inOrderB (ops : List AqOp) : Bool :=
  (List.range ops.length).all fun i => match ops[i]? with
    | some (.resp _) => match Aq.init.run (ops.take i) with
      | some s => (slaveResponses (ops.take i)).length < (addresses s.log).length ∧ (slaveResponses (ops.take i)).length < endedBursts s.log
      | none => true
    | _ => true

theorem inOrderB_sound {ops : List AqOp} (h : inOrderB ops = true) : InOrderSlave ops := by
  intro pre r post s he hr
  have hi : pre.length < ops.length := by rw [he]; simp
  have := List.all_eq_true.1 h pre.length (List.mem_range.2 hi)
  have h1 : ops[pre.length]? = some (.resp r) := by rw [he]; simp
  have h2 : ops.take pre.length = pre := by rw [he]; simp
  rw [h1, h2, hr] at this
  simpa using this

def inOrderReadsB (ops : List ArOp) : Bool :=
  (List.range ops.length).all fun i => match ops[i]? with
    | some (.beat _ _) => match Ar.init.run (ops.take i) with
      | some s => finished (slaveBeats (ops.take i)) < (readAddresses s.log).length
      | none => true
    | _ => true

theorem inOrderReadsB_sound {ops : List ArOp} (h : inOrderReadsB ops = true) : InOrderReads ops := by
  intro pre v l post s he hr
  have hi : pre.length < ops.length := by rw [he]; simp
  have := List.all_eq_true.1 h pre.length (List.mem_range.2 hi)
  have h1 : ops[pre.length]? = some (.beat v l) := by rw [he]; simp
  have h2 : ops.take pre.length = pre := by rw [he]; simp
  rw [h1, h2, hr] at this
  simpa using this

/-- C63, order of writes: in every execution, whatever fails, the addresses sent are those of transactions in the order of the calls, the
data is the bursts of all calls, one whole burst after the other with WLAST at the last beat of each, and the responses are taken in the
order of the calls by transactions of which the address and the whole burst have been sent. -/
theorem C63_order (ops : List AqOp) (s : Aq) (hr : Aq.init.run ops = some s) (hpos : ∀ n ∈ callLens ops, 0 < n) :
    (addresses s.log).Pairwise (· < ·) ∧
    beats s.log <+: bursts 0 (callLens ops) ∧
    ((responses s.log).map (·.1)).Pairwise (· < ·) ∧
    ∀ t ∈ (responses s.log).map (·.1), t ∈ addresses s.log ∧ t < endedBursts s.log := by
  obtain ⟨a, wd, h, -⟩ := aqInv hr hpos
  have hsub : ((responses s.log).map (·.1)).Sublist s.awEnded :=
    ((List.prefix_append _ s.b).sublist.trans (by rw [h.resp]; exact List.filter_sublist))
  refine ⟨by rw [h.addr]; exact h.sorted, h.beats_prefix, h.sorted.sublist hsub, ?_⟩
  intro t ht
  have hm : t ∈ s.awEnded.filter (· < wd) := by rw [← h.resp]; exact List.mem_append_left _ ht
  have := List.mem_filter.1 hm
  rw [h.addr, h.ended]
  exact ⟨this.1, by simpa using this.2⟩

/-- C63, order of writes when no address is refused: the addresses are exactly those of the first calls, without gaps. -/
theorem C63_addresses (ops : List AqOp) (s : Aq) (hr : Aq.init.run ops = some s) (hpos : ∀ n ∈ callLens ops, 0 < n)
    (hraise : AqOp.awRaise ∉ ops) : addresses s.log <+: List.range (callLens ops).length := by
  obtain ⟨a, wd, h, hn⟩ := aqInv hr hpos
  rw [h.addr, hn hraise, ← h.lens]
  have := h.ha
  rw [List.range_eq_range', List.range_eq_range', show s.lens.length = a + (s.lens.length - a) by omega, ← List.range'_append_1]
  exact List.prefix_append _ _

/-- C63, responses: with a slave that answers in order, and if no address is refused, the `k`-th response of the slave is taken by the
`k`-th write, for all `k`, and none is lost. Missing: executions in which an address is refused, for which this is false
(`C63_violated`). -/
theorem C63_responses_partial (ops : List AqOp) (s : Aq) (hr : Aq.init.run ops = some s) (hpos : ∀ n ∈ callLens ops, 0 < n)
    (hraise : AqOp.awRaise ∉ ops) (hslave : InOrderSlave ops) :
    responses s.log = (List.range (slaveResponses ops).length).zip (slaveResponses ops) ∧ ∀ r, AqEv.lost r ∉ s.log :=
  aq_matched hr hpos hraise hslave

/-- Three concurrent writes of 2, 1 and 3 beats, data ahead of the addresses at first and behind them later. -/
def aqSample : List AqOp :=
  [.call 2, .wBeat, .call 1, .wBeat, .wBeat, .awDone, .resp 0, .call 3, .awDone, .awDone, .resp 2, .wBeat, .wBeat, .wBeat, .resp 3]

example : ∃ s, Aq.init.run aqSample = some s ∧ (∀ n ∈ callLens aqSample, 0 < n) ∧ AqOp.awRaise ∉ aqSample ∧ InOrderSlave aqSample ∧
    responses s.log = [(0, 0), (1, 2), (2, 3)] ∧ addresses s.log = [0, 1, 2] ∧
    beats s.log = [(0, 0, false), (0, 1, true), (1, 0, true), (2, 0, false), (2, 1, false), (2, 2, true)] :=
  ⟨_, rfl, by decide, by decide, inOrderB_sound (by decide), by decide, by decide, by decide⟩

/-- Some response is nobody's, or the data which the slave gets with some address is that of another transaction. -/
def Mismatched (s : Aq) : Prop :=
  (∃ r, AqEv.lost r ∈ s.log) ∧ ∃ t u, (addresses s.log).head? = some t ∧ (beats s.log).head? = some (u, 0, true) ∧ t ≠ u

/-- C63 does not hold: if the address of a write is refused, its data is sent all the same. The slave takes it for the data of the next
write and answers; nobody is waiting for this response, and when the data of that write is sent the slave has no address left for it. -/
theorem C63_violated : ∃ ops s, InOrderSlave ops ∧ Aq.init.run ops = some s ∧ (∀ n ∈ callLens ops, 0 < n) ∧ Mismatched s ∧
    s.b = [1] ∧ (slaveResponses ops).length = (addresses s.log).length :=
  ⟨[.call 1, .call 1, .awRaise, .wBeat, .awDone, .resp 0, .wBeat], _, inOrderB_sound (by decide), rfl, by decide,
    ⟨⟨0, by decide⟩, 1, 0, by decide, by decide, by decide⟩, rfl, rfl⟩

/-- C63, reads: in every execution the addresses sent are in the order of the calls; with a slave that answers in order, the `k`-th burst is
taken by the transaction of which the address was the `k`-th sent, whole and in order, and no beat is lost. This includes executions in
which addresses are refused. -/
theorem C63_reads (ops : List ArOp) (s : Ar) (hr : Ar.init.run ops = some s) (hslave : InOrderReads ops) :
    (readAddresses s.log).Pairwise (· < ·) ∧ (∀ t ∈ readAddresses s.log, t < callReads ops) ∧
    (∀ x ∈ numbered 0 (slaveBeats ops), x.1 < (readAddresses s.log).length) ∧
    readBeats s.log = (numbered 0 (slaveBeats ops)).map (fun x => ((readAddresses s.log).getD x.1 0, x.2)) ∧
    ∀ v, ArEv.lost v ∉ s.log := by
  obtain ⟨a, h, -⟩ := arInv hr
  obtain ⟨h1, h2, -, -, h5⟩ := ar_matched hr hslave
  exact ⟨h.sorted, fun t ht => by have := h.below t ht; have := h.ha; have := h.calls; omega, h2, h1, h5⟩

/-- C63, reads when no address is refused: the addresses are those of the first calls, and the `k`-th burst is that of the `k`-th read. -/
theorem C63_reads_all (ops : List ArOp) (s : Ar) (hr : Ar.init.run ops = some s) (hslave : InOrderReads ops) (hraise : ArOp.arRaise ∉ ops) :
    readAddresses s.log <+: List.range (callReads ops) ∧ readBeats s.log = numbered 0 (slaveBeats ops) := by
  obtain ⟨a, h, hn⟩ := arInv hr
  obtain ⟨h1, h2, -, -, -⟩ := ar_matched hr hslave
  rw [hn hraise] at h1 h2 ⊢
  constructor
  · have := h.ha
    rw [h.calls] at this
    rw [List.range_eq_range', List.range_eq_range', show callReads ops = a + (callReads ops - a) by omega, ← List.range'_append_1]
    exact List.prefix_append _ _
  · rw [h1]
    conv => rhs; rw [← List.map_id (numbered 0 (slaveBeats ops))]
    apply List.map_congr_left
    intro x hx
    have := h2 x hx
    simp only [List.length_range] at this
    simp [List.getD, this]

/-- Two reads of three and two beats; the second address is accepted before the first burst has ended, a third one is refused. -/
def arSample : List ArOp :=
  [.call, .call, .arDone, .beat 5 false, .arDone, .call, .beat 6 false, .beat 7 true, .arRaise, .beat 8 false, .beat 9 true]

example : ∃ s, Ar.init.run arSample = some s ∧ InOrderReads arSample ∧
    readBeats s.log = [(0, 5, false), (0, 6, false), (0, 7, true), (1, 8, false), (1, 9, true)] :=
  ⟨_, rfl, inOrderReadsB_sound (by decide), by decide⟩

example : ∃ s, Ar.init.run (arSample.filter (· ≠ .arRaise)) = some s ∧ InOrderReads (arSample.filter (· ≠ .arRaise)) ∧
    ArOp.arRaise ∉ arSample.filter (· ≠ .arRaise) :=
  ⟨_, rfl, inOrderReadsB_sound (by decide), by decide⟩

end CocotbBus
