import Verif.Proof.MmTasksDuo

/-! # Property C107: several tasks that use one `AvalonMaster` -/

namespace CocotbBus
open Spec Coro

/-- C107, for any slave and any number of tasks: as long as no task calls between the release of the lock and the resumption of the task
that waited for it, and at most one task waits, the signals and the values read are those of one task that makes the calls in the order in
which they got the lock. -/
theorem C107_one_task_partial (c : MmCfg) (out : MmOut) (hout : out.busy = false) (cur : MmIn) (progs : List (List MmOp))
    (hops : ∀ p ∈ progs, ∀ op ∈ p, mmRefuses c op = none) (evs : List TEv) (g : MmSys)
    (hrun : (MmSys.start out cur progs).steps c evs = some g) (hcalm : Calm c (MmSys.start out cur progs) evs) (hset : Settled g) :
    ∃ ops, callsOf ops = g.order.map Prod.snd ∧
      (mmUse c ops ⟨.mid, out, cur, cur, g.ins⟩).1 = g.reads.map Prod.snd ∧
      (∀ n, drivenIn (mmUse c ops ⟨.mid, out, cur, cur, g.ins⟩).2 n = drivenIn (pinsOf g) n) ∧
      (∀ (t : Nat) p x, progs[t]? = some p → g.tasks[t]? = some x → isDead x = false →
        callsOf p = callsBy t g.order ++ callsOf (leftOf x)) := by
  obtain ⟨J, h1, h2, -⟩ := steps_inv c (fun F => ⟨.mid, out, cur, cur, F⟩) progs hops evs 0 _ g (start_inv c out cur progs hout)
    (start_tracks out cur progs) (start_paused out cur progs) hcalm hrun
  obtain ⟨ops, h⟩ := inv_final c out cur J g h1 hset
  exact ⟨ops, h.calls, h.reads, h.driven, fun t p x hp hx hd => (h2.task t p x hp hx).1 hd⟩

/-- C107, for a memory: nothing raises; the reads return what a memory returns to the calls in the order in which they got the lock, to the
task that made them; each task's calls are made in its order; and all are made within the edges they take one after the other. -/
theorem C107_calm_partial (c : MmCfg) (m : MemCfg) (hb : OneBus c m) (hm : SingleMem m) (hd : c.hasRdv = true ∨ m.latMax = 0) (rand : Nat → Nat)
    (init : Nat → Option Nat) (hinit : ∀ a v, init a = some v → v < 256 ^ (m.width / 8)) (o1 : MmOut) (o2 : MemOut) (cur : MmIn)
    (progs : List (List MmOp)) (hops : ∀ p ∈ progs, ∀ op ∈ p, OpOk c op) (evs : List TEv) (g : MmSys)
    (hrun : (MmSys.start (mmInit c o1) cur progs).steps c evs = some g) (hcalm : Calm c (MmSys.start (mmInit c o1) cur progs) evs)
    (hset : Settled g) (sS : Sim MemIn MemOut) (hS : memInit m init o2 = .ok sS.out)
    (hwired : Wired ⟨.mid, mmInit c o1, cur, cur, g.ins⟩ (pinsOf g) sS (memRespond m rand sS)) :
    (∀ x ∈ g.tasks, isDead x = false) ∧
    (∃ l, g.reads ++ l = readsBy c.dataW init g.order) ∧
    (∀ (t : Nat) p x, progs[t]? = some p → g.tasks[t]? = some x → callsOf p = callsBy t g.order ++ callsOf (leftOf x)) ∧
    ((∀ x ∈ g.tasks, isDone x = true) → g.reads = readsBy c.dataW init g.order) ∧
    ((progs.map (edgesFor m.latMax)).sum ≤ g.ins.length → ∀ x ∈ g.tasks, isDone x = true) := by
  obtain ⟨J, h1, h2, h3⟩ := steps_inv c (fun F => ⟨.mid, mmInit c o1, cur, cur, F⟩) progs (fun p hp op hop => opOk_refuses c op (hops p hp op hop))
    evs 0 _ g (start_inv c _ cur progs rfl) (start_tracks _ cur progs) (start_paused _ cur progs) hcalm hrun
  obtain ⟨ops, h⟩ := inv_final c _ cur J g h1 hset
  have hok : ∀ op ∈ ops, OpOk c op := by
    intro op hop
    rcases mem_or_pause op ops hop with hop | ⟨n, rfl⟩
    · rw [h.calls] at hop
      obtain ⟨p, hp, hop⟩ := tracks_mem progs g h2 op hop
      exact hops p hp op hop
    · trivial
  have hw : Wired ⟨.mid, mmInit c o1, cur, cur, g.ins⟩ (mmUse c ops ⟨.mid, mmInit c o1, cur, cur, g.ins⟩).2 sS (memRespond m rand sS) :=
    ⟨hwired.cycles, hwired.toMaster, fun n i hi => by rw [h.driven n]; exact hwired.toMemory n i hi⟩
  obtain ⟨q1, q2, q3, q4⟩ := C84_general c m hb hm hd rand init hinit o1 o2 ops hok ⟨.mid, mmInit c o1, cur, cur, g.ins⟩ sS rfl hS hw
  rcases h.alive with ⟨e, s', he⟩ | ⟨-, hfst, halive, hfin⟩
  · exact absurd he (q2 e s')
  have hsnd : ∃ l, g.reads.map Prod.snd ++ l = (readsBy c.dataW init g.order).map Prod.snd := by
    obtain ⟨l, hl⟩ := q1
    exact ⟨l, by rw [readsBy_snd, ← h.calls, ← readsOf_calls, ← h.reads]; exact hl⟩
  have hpre := prefix_of_both g.reads (readsBy c.dataW init g.order) (by rw [readsBy_fst]; exact hfst) hsnd
  refine ⟨halive, hpre, fun t p x hp hx => (h2.task t p x hp hx).1 (halive x (List.mem_of_getElem? hx)), ?_, ?_⟩
  · intro hall
    obtain ⟨l, hl⟩ := hpre
    have hlen : g.reads.length = (readsBy c.dataW init g.order).length := by
      rw [← List.length_map (f := Prod.fst) (as := g.reads), hfin hall, ← readsBy_fst c.dataW g.order init, List.length_map]
    have : l = [] := by
      rw [← hl, List.length_append] at hlen
      exact List.length_eq_zero_iff.1 (by omega)
    rw [← hl, this, List.append_nil]
  · intro hedges x hx
    cases hdone : isDone x with
    | true => rfl
    | false =>
      exfalso
      obtain ⟨t, ht⟩ := List.getElem?_of_mem hx
      have hlt : t < progs.length := by rw [← h2.length]; exact (List.getElem?_eq_some_iff.1 ht).1
      have hp : progs[t]? = some progs[t] := List.getElem?_eq_getElem hlt
      have hJ : J + pausesLeft x ≤ idleEdges progs[t] := by
        rcases h3 t _ x hp ht with hq | hq | hq
        · rw [hq] at hdone; cases hdone
        · rw [halive x hx] at hq; cases hq
        · exact hq
      have hidle : idleEdges ops ≤ (progs.map idleEdges).sum := by
        refine Nat.le_trans ?_ (le_sum _ (idleEdges progs[t]) (List.mem_map.2 ⟨_, List.getElem_mem hlt, rfl⟩))
        rcases h.idle with hi | ⟨hi, hrest⟩
        · omega
        · rcases hrest x hx with hq | hq
          · rw [hq] at hdone; cases hdone
          · omega
      have hcost : costOf m.latMax ops ≤ (progs.map (costOf m.latMax)).sum := by
        rw [← costOf_calls, h.calls]
        exact tracks_cost _ _ _ h2
      have := q4 (by
        rw [edgesFor_split]
        rw [edges_sum] at hedges
        show idleEdges ops + costOf m.latMax ops ≤ g.ins.length
        omega)
      rw [h.notOk] at this
      cases this

/-- C107 for two tasks that let a clock edge pass after each call, whatever the order in which they are resumed. -/
theorem C107_two_tasks_partial (c : MmCfg) (m : MemCfg) (hb : OneBus c m) (hm : SingleMem m) (hd : c.hasRdv = true ∨ m.latMax = 0) (rand : Nat → Nat)
    (init : Nat → Option Nat) (hinit : ∀ a v, init a = some v → v < 256 ^ (m.width / 8)) (o1 : MmOut) (o2 : MemOut) (cur : MmIn)
    (p q : List MmOp) (hp : Polite p) (hq : Polite q) (hops : ∀ op ∈ p ++ q, OpOk c op) (evs : List TEv) (g : MmSys)
    (hrun : (MmSys.start (mmInit c o1) cur [p, q]).steps c evs = some g) (hset : Settled g) (sS : Sim MemIn MemOut)
    (hS : memInit m init o2 = .ok sS.out)
    (hwired : Wired ⟨.mid, mmInit c o1, cur, cur, g.ins⟩ (pinsOf g) sS (memRespond m rand sS)) :
    (∀ x ∈ g.tasks, isDead x = false) ∧
    (∃ l, g.reads ++ l = readsBy c.dataW init g.order) ∧
    (∀ (t : Nat) r x, [p, q][t]? = some r → g.tasks[t]? = some x → callsOf r = callsBy t g.order ++ callsOf (leftOf x)) ∧
    ((∀ x ∈ g.tasks, isDone x = true) → g.reads = readsBy c.dataW init g.order) ∧
    (edgesFor m.latMax p + edgesFor m.latMax q ≤ g.ins.length → ∀ x ∈ g.tasks, isDone x = true) := by
  have hops' : ∀ r ∈ [p, q], ∀ op ∈ r, OpOk c op := by
    intro r hr op hop
    simp only [List.mem_cons, List.not_mem_nil, or_false] at hr
    rcases hr with rfl | rfl
    · exact hops op (List.mem_append_left _ hop)
    · exact hops op (List.mem_append_right _ hop)
  have hcalm := duo_all_calm c (fun F => ⟨.mid, mmInit c o1, cur, cur, F⟩) [p, q] (fun r hr op hop => opOk_refuses c op (hops' r hr op hop)) evs 0 _
    (start_inv c _ cur [p, q] rfl) (start_tracks _ cur [p, q]) (start_duo _ cur p q rfl hp hq)
  have := C107_calm_partial c m hb hm hd rand init hinit o1 o2 cur [p, q] hops' evs g hrun hcalm hset sS hS hwired
  refine ⟨this.1, this.2.1, this.2.2.1, this.2.2.2.1, fun h => this.2.2.2.2 ?_⟩
  simpa using h

/-! ### Simulations -/

/-- what happens next before the next edge, if the tasks are resumed in this order -/
def exNext (order : List Nat) (g : MmSys) : Option TEv :=
  match order.find? (fun t => (g.tasks[t]?.map TaskSt.runnable).getD false) with
  | some t => some (.run t)
  | none =>
    if g.tasks.any TaskSt.wantsRO then some .ro
    else if g.tasks.any TaskSt.wantsNext then some .next
    else none

/-- all steps, with these inputs -/
def exEvs (c : MmCfg) (order : List Nat) : Nat → List MmIn → MmSys → List TEv
  | 0, _, _ => []
  | fuel + 1, ins, g =>
    match exNext order g, ins with
    | some e, ins => e :: ((g.step c e).map (exEvs c order fuel ins)).getD []
    | none, i :: is => .edge i :: ((g.step c (.edge i)).map (exEvs c order fuel is)).getD []
    | none, [] => []

/-- the memory of that simulation -/
def exMemSim (g : MmSys) : Sim MemIn MemOut :=
  ⟨.mid, exMemStart, memSees (drivenIn (pinsOf g) 0), memSees (drivenIn (pinsOf g) 0),
    (List.range g.ins.length).map fun n => memSees (drivenIn (pinsOf g) (n + 1))⟩

def exWiredB (c : MmCfg) (m : MemCfg) (cur : MmIn) (g : MmSys) : Bool :=
  (List.range (g.ins.length + 1)).all fun n => (cur :: g.ins)[n]? == some (mmSees (drivenIn (memRespond m id (exMemSim g)) n))

theorem exWired (c : MmCfg) (m : MemCfg) (out : MmOut) (cur : MmIn) (g : MmSys) (h : exWiredB c m cur g = true) :
    Wired ⟨.mid, out, cur, cur, g.ins⟩ (pinsOf g) (exMemSim g) (memRespond m id (exMemSim g)) := by
  refine ⟨by simp [exMemSim], ?_, ?_⟩
  · intro n i hi
    have hn : n < g.ins.length + 1 := by simpa using (List.getElem?_eq_some_iff.1 hi).1
    have := List.all_eq_true.1 h n (List.mem_range.2 hn)
    rw [show (cur :: g.ins)[n]? = some i from hi] at this
    exact Option.some.inj (eq_of_beq this)
  · intro n i hi
    cases n with
    | zero => cases hi; rfl
    | succ n =>
      simp only [List.getElem?_cons_succ, exMemSim] at hi
      obtain ⟨k, hk, rfl⟩ := getElem?_map_of _ _ _ _ hi
      obtain ⟨hlt, rfl⟩ := List.getElem?_eq_some_iff.1 hk
      simp

def exSettledB (g : MmSys) : Bool := g.tasks.all fun x => !x.runnable && !x.wantsRO && !x.wantsNext

theorem exSettled (g : MmSys) (h : exSettledB g = true) : Settled g := by
  intro x hx
  have := List.all_eq_true.1 h x hx
  simpa [and_assoc] using this

def exCur : MmIn := mmSees exMemStart
def exSys (progs : List (List MmOp)) : MmSys := MmSys.start (mmInit exMmBus exMmPins) exCur progs

theorem exists_of_any {α : Type} (o : Option α) (p : α → Bool) (h : o.any p = true) : ∃ a, o = some a ∧ p a = true := by
  cases o with
  | none => cases h
  | some a => exact ⟨a, rfl, h⟩

theorem exOneBus : OneBus exMmBus exMemBus := ⟨rfl, rfl, rfl, rfl, rfl, rfl, rfl, rfl, rfl, fun w h => by cases h; rfl⟩
theorem exSingleMem : SingleMem exMemBus := ⟨rfl, .inl rfl, fun _ => rfl, fun _ => rfl, by decide⟩

def exOkB (c : MmCfg) (op : MmOp) : Bool := match op with
  | .write a v => c.hasWrite && decide (a < 2 ^ c.addrW) && decide (v < 2 ^ c.dataW)
  | .read a => c.hasRead && decide (a < 2 ^ c.addrW)
  | .pause _ => true

theorem exOk (c : MmCfg) (ops : List MmOp) (h : ops.all (exOkB c) = true) : ∀ op ∈ ops, OpOk c op := by
  intro op hop
  have := List.all_eq_true.1 h op hop
  cases op with
  | write a v => simpa [exOkB, OpOk, and_assoc] using this
  | read a => simpa [exOkB, OpOk] using this
  | pause n => trivial

/-- two tasks: each writes, reads what the other wrote and then what it wrote itself -/
def exTaskA : List MmOp := [.write 5 1, .pause 1, .read 7, .pause 2, .read 5]
def exTaskB : List MmOp := [.write 7 3, .pause 2, .read 5, .pause 1, .write 5 9]
def exIdle (n v : Nat) : List MmIn := List.replicate n ⟨.zero, .zero, natToBits 16 v⟩
def exInsAB : List MmIn := List.replicate 6 exCur ++ [⟨.zero, .one, natToBits 16 3⟩] ++ exIdle 3 3 ++ [⟨.zero, .one, natToBits 16 1⟩] ++ exIdle 4 1 ++
  [⟨.zero, .one, natToBits 16 1⟩] ++ exIdle 12 1

/-- the hypotheses of the theorems for a memory are met -/
example : ∃ (evs : List TEv) (g : MmSys), OneBus exMmBus exMemBus ∧ SingleMem exMemBus ∧ exMmBus.hasRdv = true ∧ Polite exTaskA ∧ Polite exTaskB ∧
    (∀ op ∈ exTaskA ++ exTaskB, OpOk exMmBus op) ∧ (exSys [exTaskA, exTaskB]).steps exMmBus evs = some g ∧
    Calm exMmBus (exSys [exTaskA, exTaskB]) evs ∧ Settled g ∧
    memInit exMemBus exMemContents exMemStart = .ok (exMemSim g).out ∧
    Wired ⟨.mid, mmInit exMmBus exMmPins, exCur, exCur, g.ins⟩ (pinsOf g) (exMemSim g) (memRespond exMemBus id (exMemSim g)) ∧
    edgesFor exMemBus.latMax exTaskA + edgesFor exMemBus.latMax exTaskB ≤ g.ins.length ∧
    g.order = [(0, .write 5 1), (1, .write 7 3), (0, .read 7), (1, .read 5), (0, .read 5), (1, .write 5 9)] ∧
    g.reads = [(0, natToBits 16 3), (1, natToBits 16 1), (0, natToBits 16 1)] := by
  have hA : Polite exTaskA := trivial
  have hB : Polite exTaskB := trivial
  have hops : ∀ op ∈ exTaskA ++ exTaskB, OpOk exMmBus op := exOk _ _ rfl
  obtain ⟨g, hg, hc⟩ := exists_of_any ((exSys [exTaskA, exTaskB]).steps exMmBus (exEvs exMmBus [0, 1] 500 exInsAB (exSys [exTaskA, exTaskB])))
    (fun g => exSettledB g && exWiredB exMmBus exMemBus exCur g && decide (27 ≤ g.ins.length) &&
      (g.order == [(0, .write 5 1), (1, .write 7 3), (0, .read 7), (1, .read 5), (0, .read 5), (1, .write 5 9)]) &&
      (g.reads == [(0, natToBits 16 3), (1, natToBits 16 1), (0, natToBits 16 1)])) (by decide +kernel)
  simp only [Bool.and_eq_true, decide_eq_true_eq, beq_iff_eq] at hc
  obtain ⟨⟨⟨⟨h1, h2⟩, h3⟩, h4⟩, h5⟩ := hc
  refine ⟨_, g, exOneBus, exSingleMem, rfl, hA, hB, hops, hg, ?_, exSettled g h1, rfl, exWired exMmBus _ _ _ g h2, h3, h4, h5⟩
  refine duo_all_calm _ _ [exTaskA, exTaskB] (fun r hr op hop => opOk_refuses _ op (hops op ?_)) _ 0 _ (start_inv _ _ exCur [exTaskA, exTaskB] rfl)
    (start_tracks _ _ _) (start_duo _ _ _ _ rfl hA hB)
  simp only [List.mem_cons, List.not_mem_nil, or_false] at hr
  rcases hr with rfl | rfl
  · exact List.mem_append_left _ hop
  · exact List.mem_append_right _ hop

/-! ### Without the pauses, or with a third task -/

/-- writes 2 to address 6 and reads it back -/
def exWriter : List MmOp := [.write 5 1, .write 6 2, .pause 5, .read 6]
def exOnce (a : Nat) : List MmOp := [.write a 3]
def exWriter6 : List MmOp := [.write 6 2, .pause 5, .read 6]
def exInsLost : List MmIn := List.replicate 11 exCur ++ [⟨.zero, .one, List.replicate 16 .x⟩] ++ List.replicate 13 exCur

/-- C107 is violated: a task that calls again as soon as its call has returned gets the lock a second time, and the task that waited for it
gets it too. Both drive the signals, a write is lost, and both calls return: the task reads X's where it
wrote 2. -/
theorem C107_violated : ∃ (c : MmCfg) (m : MemCfg) (rand : Nat → Nat) (init : Nat → Option Nat) (o1 : MmOut) (o2 : MemOut) (cur : MmIn)
    (progs : List (List MmOp)) (evs : List TEv) (g : MmSys) (sS : Sim MemIn MemOut),
    OneBus c m ∧ SingleMem m ∧ c.hasRdv = true ∧ (∀ a v, init a = some v → v < 256 ^ (m.width / 8)) ∧ progs.length = 2 ∧
    (∀ p ∈ progs, ∀ op ∈ p, OpOk c op) ∧ (MmSys.start (mmInit c o1) cur progs).steps c evs = some g ∧ Settled g ∧
    memInit m init o2 = .ok sS.out ∧ Wired ⟨.mid, mmInit c o1, cur, cur, g.ins⟩ (pinsOf g) sS (memRespond m rand sS) ∧
    (∀ x ∈ g.tasks, isDone x = true) ∧ progs[0]? = some exWriter ∧
    readsBy c.dataW init g.order = [(0, natToBits c.dataW 2)] ∧ g.reads = [(0, List.replicate c.dataW .x)] := by
  obtain ⟨g, hg, hc⟩ := exists_of_any ((exSys [exWriter, exOnce 7]).steps exMmBus (exEvs exMmBus [0, 1] 500 exInsLost (exSys [exWriter, exOnce 7])))
    (fun g => exSettledB g && exWiredB exMmBus exMemBus exCur g && (g.tasks.all isDone) && (readsBy 16 exMemContents g.order == [(0, natToBits 16 2)]) &&
      (g.reads == [(0, List.replicate 16 .x)])) (by decide +kernel)
  simp only [Bool.and_eq_true, beq_iff_eq] at hc
  obtain ⟨⟨⟨⟨h1, h2⟩, h3⟩, h4⟩, h5⟩ := hc
  refine ⟨exMmBus, exMemBus, id, exMemContents, exMmPins, exMemStart, exCur, [exWriter, exOnce 7], _, g, exMemSim g,
    exOneBus, exSingleMem, rfl, exMemContents_fits, rfl, ?_, hg, exSettled g h1, rfl, exWired exMmBus _ _ _ g h2, List.all_eq_true.1 h3, rfl,
    h4, h5⟩
  · intro p hp
    simp only [List.mem_cons, List.not_mem_nil, or_false] at hp
    rcases hp with rfl | rfl <;> exact exOk _ _ rfl

/-- C107 is violated for three tasks that pause: the two that waited for the lock both get it. -/
theorem C107_three_violated : ∃ (c : MmCfg) (m : MemCfg) (rand : Nat → Nat) (init : Nat → Option Nat) (o1 : MmOut) (o2 : MemOut) (cur : MmIn)
    (progs : List (List MmOp)) (evs : List TEv) (g : MmSys) (sS : Sim MemIn MemOut),
    OneBus c m ∧ SingleMem m ∧ c.hasRdv = true ∧ (∀ a v, init a = some v → v < 256 ^ (m.width / 8)) ∧ (∀ p ∈ progs, Polite p) ∧ progs.length = 3 ∧
    (∀ p ∈ progs, ∀ op ∈ p, OpOk c op) ∧ (MmSys.start (mmInit c o1) cur progs).steps c evs = some g ∧ Settled g ∧
    memInit m init o2 = .ok sS.out ∧ Wired ⟨.mid, mmInit c o1, cur, cur, g.ins⟩ (pinsOf g) sS (memRespond m rand sS) ∧
    (∀ x ∈ g.tasks, isDone x = true) ∧ progs[1]? = some exWriter6 ∧
    readsBy c.dataW init g.order = [(1, natToBits c.dataW 2)] ∧ g.reads = [(1, List.replicate c.dataW .x)] := by
  obtain ⟨g, hg, hc⟩ := exists_of_any ((exSys [exOnce 5, exWriter6, exOnce 7]).steps exMmBus (exEvs exMmBus [0, 1, 2] 500 exInsLost (exSys [exOnce 5, exWriter6, exOnce 7])))
    (fun g => exSettledB g && exWiredB exMmBus exMemBus exCur g && (g.tasks.all isDone) && (readsBy 16 exMemContents g.order == [(1, natToBits 16 2)]) &&
      (g.reads == [(1, List.replicate 16 .x)])) (by decide +kernel)
  simp only [Bool.and_eq_true, beq_iff_eq] at hc
  obtain ⟨⟨⟨⟨h1, h2⟩, h3⟩, h4⟩, h5⟩ := hc
  refine ⟨exMmBus, exMemBus, id, exMemContents, exMmPins, exMemStart, exCur, [exOnce 5, exWriter6, exOnce 7], _, g, exMemSim g,
    exOneBus, exSingleMem, rfl, exMemContents_fits, ?_, rfl, ?_, hg, exSettled g h1, rfl, exWired exMmBus _ _ _ g h2, List.all_eq_true.1 h3, rfl,
    h4, h5⟩
  · intro p hp
    simp only [List.mem_cons, List.not_mem_nil, or_false] at hp
    rcases hp with rfl | rfl | rfl <;> trivial
  · intro p hp
    simp only [List.mem_cons, List.not_mem_nil, or_false] at hp
    rcases hp with rfl | rfl | rfl <;> exact exOk _ _ rfl

end CocotbBus
