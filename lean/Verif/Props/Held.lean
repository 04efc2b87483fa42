import Verif.Proof.HeldBus
import Verif.Props.MmTasks
import Verif.Props.AvalonPkts
import Verif.Props.AxiMany

/-! # C108: what is offered on a bus is held until it is taken -/

namespace CocotbBus
open Spec Coro

/-- **C108**, AXI address channels: whatever `write` and `read` are called with, by any number of tasks and at any moments, also if calls raise. -/
theorem C108_axi_addresses (c : AxCfg) (hc : Standard c) (wcalls rcalls : List (AxOp × Moment)) (s : Sim AxIn AxAll) (haw : awOffers s.out = false) (har : arOffers s.out = false) :
    let t := (axMany c wcalls rcalls s).trace
    Held awOffers (fun i => i.awready == .one) (fun o => o.1.1) t ∧ Held arOffers (fun i => i.arready == .one) (fun o => o.2) t := by
  intro t
  obtain ⟨-, -, h1, -, h2⟩ := axMany_trace c wcalls rcalls s
  constructor
  · refine Hold.held_map (fun o : AxAll => o.1.1) (offers := Hold.addrOffers) (what := id) ?_
    have : t.map (fun q => (q.1.1.1, q.2)) = _ := h1
    rw [this]
    exact Hold.follows_held _ _ _ _ _ (Hold.locked_follows _ wcalls (fun x _ => Hold.HT.awJob c hc x.1) _ _ (Hold.quiet_start _ haw))
  · refine Hold.held_map (fun o : AxAll => o.2) (offers := Hold.addrOffers) (what := id) ?_
    have : t.map (fun q => (q.1.2, q.2)) = _ := h2
    rw [this]
    exact Hold.follows_held _ _ _ _ _ (Hold.locked_follows _ rcalls (fun x _ => Hold.HT.arJob c hc x.1) _ _ (Hold.quiet_start _ har))

/-- C108, AXI write data (partial: no data latency in a burst of several values, see `C108_violated`). -/
theorem C108_axi_data_partial (c : AxCfg) (hc : Standard c) (wcalls rcalls : List (AxOp × Moment)) (hw : ∀ x ∈ wcalls, NoGaps x.1) (s : Sim AxIn AxAll)
    (hs : wOffers s.out = false) : Held wOffers (fun i => i.wready == .one) (fun o => o.1.2) (axMany c wcalls rcalls s).trace := by
  obtain ⟨-, -, -, h1, -⟩ := axMany_trace c wcalls rcalls s
  refine Hold.held_map (fun o : AxAll => o.1.2) (offers := Hold.wdOffers) (what := id) ?_
  have : (axMany c wcalls rcalls s).trace.map (fun q => (q.1.1.2, q.2)) = _ := h1
  rw [this]
  exact Hold.follows_held _ Hold.wdTakes _ _ _ (Hold.locked_follows _ wcalls (fun x hx => Hold.HT.wJob c hc x.1 (hw x hx)) _ _ (Hold.quiet_start _ hs))

/-- C108, Avalon-MM: a request stays until it is accepted, also if a call raises. -/
theorem C108_mm (c : MmCfg) (ops : List MmOp) (s : Sim MmIn MmOut) (hs : mmOffers s.out = false) :
    Held mmOffers (mmTakes c) mmPins (records (mmUse c ops s).2) :=
  Hold.follows_held _ _ _ _ _ (Hold.mmUse_follows c ops _ _ (Hold.quiet_start _ hs))

/-- C108, Avalon-MM with several tasks (partial: as in C107, the tasks respect the lock, see `C108_tasks_violated`). -/
theorem C108_mm_tasks_partial (c : MmCfg) (out : MmOut) (hout : out.busy = false) (hoff : mmOffers out = false) (cur : MmIn) (progs : List (List MmOp))
    (hops : ∀ p ∈ progs, ∀ op ∈ p, mmRefuses c op = none) (evs : List TEv) (g : MmSys)
    (hrun : (MmSys.start out cur progs).steps c evs = some g) (hcalm : Calm c (MmSys.start out cur progs) evs) (hset : Settled g) :
    Held mmOffers (mmTakes c) mmPins g.trace := by
  obtain ⟨ops, -, -, h1, -⟩ := C107_one_task_partial c out hout cur progs hops evs g hrun hcalm hset
  have h2 := C108_mm c ops ⟨.mid, out, cur, cur, g.ins⟩ hoff
  have h3 := Hold.steps_inputs c cur evs _ g hrun rfl
  have h4 := Hold.mmUse_paced c ops _ ⟨.mid, out, cur, cur, g.ins⟩ (Hold.quiet_start _ hoff)
  have h5 : ∀ n, n < g.trace.length → (records (mmUse c ops ⟨.mid, out, cur, cur, g.ins⟩).2)[n]? = g.trace[n]? := by
    intro n hn
    have hl := congrArg List.length h3
    simp only [List.length_cons, List.length_append, List.length_map, List.length_nil] at hl
    rw [Hold.records_driven _ _ h4 n (by simp only [List.length_cons]; omega), h1 n]
    show ((cur :: g.ins)[n]?).map _ = _
    rw [h3, List.getElem?_append_left (by simpa using hn), List.getElem?_map, List.getElem?_eq_getElem hn]
    simp only [Option.map_some, drivenIn, pinsOf, List.getElem?_eq_getElem hn, Option.getD_some]
  intro n a b ha hb
  have hlt := (List.getElem?_eq_some_iff.1 hb).1
  exact h2 n a b (by rw [h5 n (by omega)]; exact ha) (by rw [h5 (n + 1) hlt]; exact hb)

/-- C108, Avalon-ST words: sent in any session with the driver, also if a send raises. -/
theorem C108_st (c : StCfg) (acts : List (Act (AvVal × Bool))) (s : Sim StIn StOut) (hs : stOffers s.out = false) :
    Held stOffers (stTakes c) id (records (stTest c acts s)) :=
  Hold.follows_held _ _ _ _ _ (Hold.held_of _ (Hold.HT.bind (Hold.HT.write_quiet (fun _ _ h => h.calm) _ (fun _ => rfl)) fun _ =>
    Hold.HT.session _ acts (fun x _ v => Hold.HT.stSend c x.1 x.2 v) _) (fun _ _ _ h => h.steady) (fun _ _ h => h) _ _ (Hold.quiet_start _ hs))

/-- C108, Avalon-ST words appended at any moments. -/
theorem C108_st_queue (c : StCfg) (gen : Option (List (Nat × Nat))) (app : Sched AvVal) (s : Sim StIn StOut) (hs : stOffers s.out = false) :
    Held stOffers (stTakes c) id (records (stQueue c gen app s)) :=
  Hold.follows_held _ _ _ _ _ (Hold.held_of _ (Hold.HT.bind (Hold.HT.write_quiet (fun _ _ h => h.calm) _ (fun _ => rfl)) fun _ =>
    Hold.HT.queueThread _ app _ (fun x sync v => Hold.HT.stSend c x sync v)) (fun _ _ _ h => h.steady) (fun _ _ h => h) _ _ (Hold.quiet_start _ hs))

/-- C108, Avalon-ST packets, in any session (partial: no word of a packet given word by word has `valid` false, see `C108_words_violated`). -/
theorem C108_packets_partial (c : PkCfg) (acts : List (Act (PkArg × Bool × Option Int))) (hacts : ∀ p, Act.send p ∈ acts → AllValid p.1) (s : Sim PkIn PkOut)
    (hs : pkOffers s.out = false) : Held pkOffers (pkTakes c) id (records (pkAnyTest c acts s)) := by
  refine Hold.follows_held _ _ _ _ _ (Hold.held_of _ (Hold.HT.bind (Hold.HT.write_quiet (fun _ _ h => h.calm) _ (fun _ => rfl)) fun _ =>
    Hold.HT.session _ acts (fun x hx v => ?_) _) (fun _ _ _ h => h.steady) (fun _ _ h => h) _ _ (Hold.quiet_start _ hs))
  have hv := hacts x hx
  obtain ⟨p, sync, channel⟩ := x
  cases p with
  | bytes b => exact Hold.HT.pkSend c b sync channel v
  | str _ => exact Hold.HT.raise _ (fun _ _ h => h.steady)
  | words l => exact Hold.HT.pkSendWords c l hv sync v

/-- C108, Avalon-ST packets appended at any moments. -/
theorem C108_packet_queue (c : PkCfg) (gen : Option (List (Nat × Nat))) (app : Sched (Bytes × Option Int)) (s : Sim PkIn PkOut) (hs : pkOffers s.out = false) :
    Held pkOffers (pkTakes c) id (records (pkQueue c gen app s)) :=
  Hold.follows_held _ _ _ _ _ (Hold.held_of _ (Hold.HT.bind (Hold.HT.write_quiet (fun _ _ h => h.calm) _ (fun _ => rfl)) fun _ =>
    Hold.HT.queueThread _ app _ (fun x sync v => Hold.HT.pkSend c x.1 sync x.2 v)) (fun _ _ _ h => h.steady) (fun _ _ h => h) _ _ (Hold.quiet_start _ hs))

/-- C108, OPB: select, address and data stay until the acknowledgement, also if a call raises. -/
theorem C108_opb (c : OpbCfg) (ops : List OpbOp) (s : Sim OpbIn OpbOut) (hs : opbOffers s.out = false) :
    Held opbOffers opbTakes opbPins (records (opbUse c ops s)) :=
  Hold.follows_held _ _ _ _ _ (Hold.held_of _ (Hold.HT.opbUse c ops) (fun _ _ _ h => h.steady) (fun _ _ h => h) _ _ (Hold.quiet_start _ hs))

/-! ### False of some calls -/

/-- C108 is false of AXI write data: with a data latency WVALID stays high after the first value of a burst, and what is then offered is replaced
by the next value although it was not taken. -/
theorem C108_violated : ¬ ∀ (c : AxCfg), Standard c → ∀ (wcalls rcalls : List (AxOp × Moment)) (s : Sim AxIn AxAll), wOffers s.out = false →
    Held wOffers (fun i => i.wready == .one) (fun o => o.1.2) (axMany c wcalls rcalls s).trace := by
  intro h
  have h1 := h cfgAx ⟨⟨2, by decide, rfl⟩, rfl, rfl, rfl⟩ [(.write 0x100 [1, 2] none .incr [none] 0 1 true, (5, .mid))] []
    (startAx [readyIn, readyIn, readyIn, {}, {}, {}]) (by decide +kernel)
  revert h1
  generalize ht : (axMany cfgAx [(.write 0x100 [1, 2] none .incr [none] 0 1 true, (5, .mid))] [] (startAx [readyIn, readyIn, readyIn, {}, {}, {}])).trace = t
  intro h1
  have h2 : ((t[3]?).map (fun a => (wOffers a.1, a.2.wready == .one, bitsToNat a.1.1.2.data))) = some (true, false, 1) := by rw [← ht]; decide +kernel
  have h3 : ((t[4]?).map (fun a => bitsToNat a.1.1.2.data)) = some 2 := by rw [← ht]; decide +kernel
  cases ha : t[3]? with
  | none => rw [ha] at h2; cases h2
  | some a =>
    cases hb : t[4]? with
    | none => rw [hb] at h3; cases h3
    | some b =>
      rw [ha] at h2
      rw [hb] at h3
      simp only [Option.map_some, Option.some.injEq, Prod.mk.injEq] at h2 h3
      have := h1 3 a b ha hb h2.1 h2.2.1
      simp only at this
      rw [this, h2.2.2] at h3
      cases h3

/-- a packet of two words, the second of which is said to be not valid -/
def exWords : List PkWord := [{}, { valid := some false }]

/-- C108 is false of packets given word by word: with `valid` false in a word, the valid signal stays as it was, and what is offered is withdrawn
although it was not taken. -/
theorem C108_words_violated : ¬ ∀ (c : PkCfg) (acts : List (Act (PkArg × Bool × Option Int))) (s : Sim PkIn PkOut), pkOffers s.out = false →
    Held pkOffers (pkTakes c) id (records (pkAnyTest c acts s)) := by
  intro h
  have h1 := h (exCfg 4 true) [.send (.words exWords, true, none)] ⟨.mid, ⟨.zero, .zero, .zero, [], [], []⟩, rdy .one, rdy .one, [rdy .one, rdy .zero, rdy .zero, rdy .zero]⟩
    (by decide +kernel)
  revert h1
  generalize ht : records (pkAnyTest (exCfg 4 true) [.send (.words exWords, true, none)]
    ⟨.mid, ⟨.zero, .zero, .zero, [], [], []⟩, rdy .one, rdy .one, [rdy .one, rdy .zero, rdy .zero, rdy .zero]⟩) = t
  intro h1
  have h2 : ((t[2]?).map (fun a => (pkOffers a.1, pkTakes (exCfg 4 true) a.2, a.1.valid))) = some (true, false, .one) := by rw [← ht]; decide +kernel
  have h3 : ((t[3]?).map (fun a => a.1.valid)) = some .zero := by rw [← ht]; decide +kernel
  cases ha : t[2]? with
  | none => rw [ha] at h2; cases h2
  | some a =>
    cases hb : t[3]? with
    | none => rw [hb] at h3; cases h3
    | some b =>
      rw [ha] at h2
      rw [hb] at h3
      simp only [Option.map_some, Option.some.injEq, Prod.mk.injEq] at h2 h3
      have := h1 2 a b ha hb h2.1 h2.2.1
      simp only [id] at this
      rw [this, h2.2.2] at h3
      cases h3

def exWait (l : Logic) : MmIn := ⟨l, .zero, []⟩
def exHoldA : List MmOp := [.write 5 1, .write 6 2, .write 8 4]
def exHoldB : List MmOp := [.read 7, .read 9]
def exHoldIn : List MmIn := List.replicate 4 (exWait .zero) ++ [exWait .one, exWait .one, ⟨.one, .one, natToBits 16 1⟩] ++ List.replicate 3 (exWait .one)

/-- C108 is false of two tasks on an Avalon-MM master of which one calls again without a pause: while a write of one task waits, the other task's
read returns and frees the lock, and its next read replaces the address of the write. -/
theorem C108_tasks_violated : ∃ (c : MmCfg) (out : MmOut) (cur : MmIn) (progs : List (List MmOp)) (evs : List TEv) (g : MmSys),
    out.busy = false ∧ mmOffers out = false ∧ progs.length = 2 ∧ (∀ p ∈ progs, ∀ op ∈ p, OpOk c op) ∧ (MmSys.start out cur progs).steps c evs = some g ∧ Settled g ∧
    ¬ Held mmOffers (mmTakes c) mmPins g.trace := by
  obtain ⟨g, hg, hc⟩ := exists_of_any ((exSys [exHoldA, exHoldB]).steps exMmBus (exEvs exMmBus [0, 1] 500 exHoldIn (exSys [exHoldA, exHoldB])))
    (fun g => exSettledB g && (((g.trace[7]?).map fun a => (mmOffers a.1, mmTakes exMmBus a.2, bitsToNat a.1.address)) == some (true, false, 8)) &&
      (((g.trace[8]?).map fun a => bitsToNat a.1.address) == some 9)) (by decide +kernel)
  simp only [Bool.and_eq_true, beq_iff_eq] at hc
  obtain ⟨⟨h1, h2⟩, h3⟩ := hc
  refine ⟨exMmBus, mmInit exMmBus exMmPins, exCur, [exHoldA, exHoldB], _, g, rfl, rfl, rfl, ?_, hg, exSettled g h1, ?_⟩
  · intro p hp
    simp only [List.mem_cons, List.not_mem_nil, or_false] at hp
    rcases hp with rfl | rfl <;> exact exOk _ _ rfl
  · intro h
    cases ha : g.trace[7]? with
    | none => rw [ha] at h2; cases h2
    | some a =>
      cases hb : g.trace[8]? with
      | none => rw [hb] at h3; cases h3
      | some b =>
        rw [ha] at h2
        rw [hb] at h3
        simp only [Option.map_some, Option.some.injEq, Prod.mk.injEq] at h2 h3
        have := congrArg Prod.fst (h 7 a b ha hb h2.1 h2.2.1)
        simp only [mmPins] at this
        rw [this, h2.2.2] at h3
        cases h3

/-! ### Executions in which something has to wait -/

/-- the cycles in which something is offered and not taken -/
def waits {I O : Type} (offers : O → Bool) (takes : I → Bool) (t : List (O × I)) : List Nat :=
  (List.range t.length).filter (fun n => (t[n]?).any (fun q => offers q.1 && !takes q.2))

-- all three AXI channels, two writes and two reads at the same time; on each channel something has to wait
def exHeldIn : List AxIn := [{}, {}, readyIn, { readyIn with wready := .zero }, { readyIn with arready := .zero }, { readyIn with wready := .zero, awready := .zero },
  { readyIn with wready := .zero }, readyIn, readyIn, {}, {}]
example : let s := startAx exHeldIn
    let t := (axMany cfgAx wMany rMany s).trace
    Standard cfgAx ∧ (∀ x ∈ wMany, NoGaps x.1) ∧ awOffers s.out = false ∧ arOffers s.out = false ∧ wOffers s.out = false ∧
    waits awOffers (fun i => i.awready == .one) t = [1] ∧ waits arOffers (fun i => i.arready == .one) t = [1, 4] ∧
    waits wOffers (fun i => i.wready == .one) t = [1, 3, 6] := by
  refine ⟨cfgAx_standard, ?_, by decide, by decide, by decide, by decide +kernel, by decide +kernel, by decide +kernel⟩
  simp only [wMany, List.forall_mem_cons]
  exact ⟨.inl rfl, .inl rfl, fun _ h => by cases h⟩

-- an address that does not fit raises; the channel is then used by the next call
example : let s := startAx [readyIn, {}, {}, readyIn, {}, {}]
    let r := axMany cfgAx [] [(.read 0x12345 1 none .incr true, (5, .mid)), (.read 0x100 1 none .incr true, (5, .mid))] s
    r.reads = [some (.error .overflowError, (4, .edge)), none] ∧ waits arOffers (fun i => i.arready == .one) r.trace = [2] := by decide +kernel

def exMmWaits : List MmIn := [⟨.one, .zero, []⟩, ⟨.one, .zero, []⟩, ⟨.one, .zero, []⟩, ⟨.zero, .zero, []⟩, ⟨.one, .zero, []⟩, ⟨.one, .one, natToBits 16 1⟩, ⟨.one, .zero, []⟩,
  ⟨.zero, .zero, []⟩, ⟨.zero, .zero, []⟩]

-- a read waits, then a write with a value that does not fit raises
example : mmOffers (mmInit exMmBus exMmPins) = false ∧ exMmBus.hasWait = true ∧
    waits mmOffers (mmTakes exMmBus) (records (mmUse exMmBus [.read 5, .write 5 3, .write 5 0x10000] ⟨.mid, mmInit exMmBus exMmPins, exCur, exCur, exMmWaits⟩).2) = [1, 2, 3, 7] := by
  decide +kernel

-- two tasks, the second of which gets the lock when the first one is done
example : ∃ (evs : List TEv) (g : MmSys), (exSys [[.write 5 1], [.read 7]]).steps exMmBus evs = some g ∧ Calm exMmBus (exSys [[.write 5 1], [.read 7]]) evs ∧ Settled g ∧
    waits mmOffers (mmTakes exMmBus) g.trace = [1, 2, 3, 6, 7] := by
  obtain ⟨g, hg, hc⟩ := exists_of_any ((exSys [[.write 5 1], [.read 7]]).steps exMmBus (exEvs exMmBus [0, 1] 500 exMmWaits (exSys [[.write 5 1], [.read 7]])))
    (fun g => exSettledB g && (waits mmOffers (mmTakes exMmBus) g.trace == [1, 2, 3, 6, 7])) (by decide +kernel)
  simp only [Bool.and_eq_true, beq_iff_eq] at hc
  refine ⟨_, g, hg, ?_, exSettled g hc.1, hc.2⟩
  refine duo_all_calm _ _ [[.write 5 1], [.read 7]] (fun r hr op hop => opOk_refuses _ op ?_) _ 0 _ (start_inv _ _ exCur [[.write 5 1], [.read 7]] rfl)
    (start_tracks _ _ _) (start_duo _ _ _ _ rfl trivial trivial)
  simp only [List.mem_cons, List.not_mem_nil, or_false] at hr
  rcases hr with rfl | rfl <;> exact exOk _ _ rfl _ hop

-- words with a valid generator; the third one cannot be converted, and valid stays high
example : let c : StCfg := ⟨8, true, true⟩
    let s : Sim StIn StOut := ⟨.mid, ⟨.zero, []⟩, ⟨.zero⟩, ⟨.zero⟩, [⟨.zero⟩, ⟨.zero⟩, ⟨.one⟩, ⟨.one⟩, ⟨.zero⟩, ⟨.one⟩, ⟨.zero⟩, ⟨.zero⟩, ⟨.zero⟩]⟩
    stOffers s.out = false ∧ waits stOffers (stTakes c) (records (stTest c [.gen (some [(1, 1), (5, 0)]), .send (.int 3, true), .send (.int 4, false), .send (.int 400, true)] s)) =
      [1, 2, 5, 8] := by decide +kernel

-- the same two words appended
example : let c : StCfg := ⟨8, true, true⟩
    let s : Sim StIn StOut := ⟨.mid, ⟨.zero, []⟩, ⟨.zero⟩, ⟨.zero⟩, [⟨.zero⟩, ⟨.zero⟩, ⟨.one⟩, ⟨.one⟩, ⟨.zero⟩, ⟨.one⟩, ⟨.zero⟩]⟩
    waits stOffers (stTakes c) (records (stQueue c none (fun r _ => if r ≤ 2 then [.int 3, .int 4, .int 5] else if r ≤ 6 then [.int 3] else []) s)) = [2] := by decide +kernel

-- two packets, one of them word by word
example : let s : Sim PkIn PkOut := ⟨.mid, ⟨.zero, .zero, .zero, [], [], []⟩, rdy .zero, rdy .zero, [rdy .zero, rdy .one, rdy .zero, rdy .one, rdy .zero, rdy .one, rdy .zero, rdy .one, rdy .one]⟩
    pkOffers s.out = false ∧ waits pkOffers (pkTakes (exCfg 4 true)) (records (pkAnyTest (exCfg 4 true) [.send (.bytes [1, 2, 3, 4, 5], true, some 2), .send (.words [{}, { valid := some true }], true, none)] s)) =
      [1, 3, 7] := by decide +kernel

-- a packet that is appended
example : let s : Sim PkIn PkOut := ⟨.mid, ⟨.zero, .zero, .zero, [], [], []⟩, rdy .zero, rdy .zero, [rdy .zero, rdy .one, rdy .zero, rdy .one, rdy .zero, rdy .one]⟩
    waits pkOffers (pkTakes (exCfg 4 true)) (records (pkQueue (exCfg 4 true) none (fun r _ => if r ≤ 5 then [([1, 2, 3, 4, 5], some 2)] else []) s)) = [3] := by decide +kernel

-- an OPB read that is acknowledged at once, and a write that waits for three cycles
example : let s : Sim OpbIn OpbOut := ⟨.mid, ⟨[], .zero, .zero, [], [], [], false⟩, {}, { xferAck := .one, dbusOut := natToBits 8 7 }, [{}, {}, {}, {}, { xferAck := .one }, {}]⟩
    opbOffers s.out = false ∧ waits opbOffers opbTakes (records (opbUse ⟨8, 8, 4⟩ [.read 3 true, .pause 1, .write 5 9 false] s)) = [2, 3, 4] := by decide +kernel

end CocotbBus
