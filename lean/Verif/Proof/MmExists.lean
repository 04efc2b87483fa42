import Verif.Proof.Causal
import Verif.Proof.MmLoop

/-! # There is a simulation of every length with a master and a memory on one bus -/

namespace CocotbBus
open Spec Coro

/-! ### The master is causal -/

theorem Causal.writeInt {I O : Type} (w n : Nat) (f : LogicArray → O → O) : Causal (writeInt w n f : M I O Unit) :=
  Causal.ite (Causal.write _) (Causal.raise _)

theorem Causal.mmAcquire : Causal mmAcquire :=
  Causal.bind Causal.getOut fun o => by
    cases o.busy
    · exact Causal.setPy _
    · exact Causal.bind Causal.hang fun _ => Causal.setPy _

theorem Causal.mmWrite (c : MmCfg) (a v : Nat) : Causal (mmWrite c a v) :=
  Causal.bind (Causal.when _ (Causal.raise _)) fun _ => Causal.bind Causal.mmAcquire fun _ => Causal.bind Causal.awaitEdge fun _ =>
  Causal.bind (Causal.writeInt _ _ _) fun _ => Causal.bind (Causal.writeInt _ _ _) fun _ => Causal.bind (Causal.write _) fun _ =>
  Causal.bind (Causal.write _) fun _ => Causal.bind (Causal.when _ (Causal.waitN _)) fun _ => Causal.bind Causal.awaitEdge fun _ =>
  Causal.bind (Causal.write _) fun _ => Causal.bind (Causal.write _) fun _ => Causal.bind (Causal.write _) fun _ => Causal.setPy _

theorem Causal.rdvLoop : Causal (Coro.loop rdvBody ()) :=
  Causal.loop rdvBody rdvBody_consumes (fun _ => Causal.bind (Causal.readOnly _) fun _ => Causal.bind Causal.inp fun _ =>
    Causal.bind (Causal.ofExcept _) fun _ => Causal.ite (Causal.bind Causal.awaitEdge fun _ => Causal.pure _) (Causal.pure _)) ()

theorem Causal.mmRead (c : MmCfg) (a : Nat) (sync : Bool) : Causal (mmRead c a sync) :=
  Causal.bind (Causal.when _ (Causal.raise _)) fun _ => Causal.bind Causal.mmAcquire fun _ => Causal.bind (Causal.when _ Causal.awaitEdge) fun _ =>
  Causal.bind (Causal.writeInt _ _ _) fun _ => Causal.bind (Causal.write _) fun _ =>
  Causal.bind (Causal.write _) fun _ => Causal.bind (Causal.when _ (Causal.waitN _)) fun _ => Causal.bind Causal.awaitEdge fun _ =>
  Causal.bind (Causal.write _) fun _ => Causal.bind (Causal.write _) fun _ => by
    refine Causal.ite (Causal.bind Causal.rdvLoop fun _ => ?_) (Causal.bind (Causal.readOnly _) fun _ => ?_) <;>
    exact Causal.bind Causal.inp fun _ => Causal.bind (Causal.setPy _) fun _ => Causal.pure _

theorem Causal.mmStep (c : MmCfg) (op : MmOp) : Causal (mmStep c op) := by
  cases op with
  | write a v => exact Causal.bind (Causal.mmWrite c a v) fun _ => Causal.pure _
  | read a => exact Causal.bind (Causal.mmRead c a true) fun _ => Causal.pure _
  | pause n => exact Causal.bind (Causal.edges n) fun _ => Causal.pure _

/-- `mmUse` without the values read -/
def mmRun (c : MmCfg) : List MmOp → M MmIn MmOut Unit
  | [] => pure ()
  | op :: ops => mmStep c op >>= fun _ => mmRun c ops

theorem mmUse_run (c : MmCfg) (ops : List MmOp) : ∀ s, (mmUse c ops s).2 = mmRun c ops s := by
  induction ops with
  | nil => intro s; rfl
  | cons op ops ih =>
    intro s
    unfold mmUse mmRun
    rw [bind_run]
    cases h : CocotbBus.mmStep c op s with
    | mk t e =>
      cases e with
      | ok d s' => simp only [andThen_ok, ← ih s']
      | err e s' => rfl
      | blocked s' => rfl

theorem Causal.mmRun (c : MmCfg) (ops : List MmOp) : Causal (mmRun c ops) := by
  induction ops with
  | nil => exact Causal.pure ()
  | cons op ops ih => exact Causal.bind (Causal.mmStep c op) fun _ => ih

/-- what a causal coroutine drives in a cycle does not depend on there being another one after it -/
theorem Causal.driven {I O α : Type} {x : M I O α} (hx : Causal x) (s : Sim I O) (i : I) (n : Nat) (hn : n ≤ s.rest.length) :
    drivenIn (x (s.snoc i)) n = drivenIn (x s) n := by
  obtain ⟨h1, h2⟩ := hx s
  have h2 := h2 i
  cases hr : x s with
  | mk t e =>
    rw [hr] at h1 h2
    cases e with
    | ok a s' => have h2 : x (s.snoc i) = _ := h2; rw [h2]; rfl
    | err a s' => have h2 : x (s.snoc i) = _ := h2; rw [h2]; rfl
    | blocked s' =>
      rcases h2 with h2 | ⟨h3, q, t', e, h4, h5⟩
      · rw [h2]; rfl
      · rw [h4]
        have h1 : t.length + s'.rest.length = s.rest.length := h1
        rw [h3] at h1
        simp only [List.length_nil, Nat.add_zero] at h1
        unfold drivenIn
        by_cases hlt : n < t.length
        · simp only [List.getElem?_append_left hlt, List.getElem?_eq_getElem hlt, Option.map_some, Option.getD_some]
        · have : n = t.length := by omega
          subst this
          simp only [List.getElem?_append_right (Nat.le_refl _), Nat.sub_self, List.getElem?_cons_zero, Option.map_some, Option.getD_some, h5,
            List.getElem?_eq_none (Nat.le_refl _), Option.map_none, Option.getD_none, End.sim]

/-! ### The simulation -/

/-- the master after construction, in a simulation with the given inputs -/
def loopM (c : MmCfg) (o1 : MmOut) (i : MmIn) (R : List MmIn) : Sim MmIn MmOut := ⟨.mid, mmInit c o1, i, i, R⟩

/-- what the memory sees in cycles `1, .., N` -/
def loopX (c : MmCfg) (ops : List MmOp) (s : Sim MmIn MmOut) (N : Nat) : List MemIn :=
  (List.range N).map fun n => memSees (drivenIn (mmUse c ops s).2 (n + 1))

/-- what the master sees in cycles `1, .., N` -/
def loopR (c : MmCfg) (m : MemCfg) (rand : Nat → Nat) (ops : List MmOp) (o1 : MmOut) (out : MemOut) : Nat → List MmIn
  | 0 => []
  | N + 1 =>
    let R := loopR c m rand ops o1 out N
    R ++ [mmSees (memPop m ((loopX c ops (loopM c o1 (mmSees out) R) N).foldl (memTick m rand) out))]

variable (c : MmCfg) (m : MemCfg) (rand : Nat → Nat) (ops : List MmOp) (o1 : MmOut) (out : MemOut)

theorem loopR_length (N : Nat) : (loopR c m rand ops o1 out N).length = N := by
  induction N with
  | zero => rfl
  | succ N ih => simp [loopR, ih]

theorem loopX_length (s : Sim MmIn MmOut) (N : Nat) : (loopX c ops s N).length = N := by simp [loopX]

theorem loopX_succ (N : Nat) :
    loopX c ops (loopM c o1 (mmSees out) (loopR c m rand ops o1 out (N + 1))) (N + 1) =
    loopX c ops (loopM c o1 (mmSees out) (loopR c m rand ops o1 out N)) N ++
      [memSees (drivenIn (mmUse c ops (loopM c o1 (mmSees out) (loopR c m rand ops o1 out (N + 1)))).2 (N + 1))] := by
  unfold loopX
  rw [List.range_succ, List.map_append]
  congr 1
  apply List.map_congr_left
  intro n hn
  rw [List.mem_range] at hn
  congr 1
  rw [mmUse_run, mmUse_run]
  have := Causal.driven (Causal.mmRun c ops) (loopM c o1 (mmSees out) (loopR c m rand ops o1 out N))
    (mmSees (memPop m ((loopX c ops (loopM c o1 (mmSees out) (loopR c m rand ops o1 out N)) N).foldl (memTick m rand) out))) (n + 1)
    (by show n + 1 ≤ (loopR c m rand ops o1 out N).length; rw [loopR_length]; omega)
  exact this

theorem mmSees_tick (o : MemOut) (i : MemIn) : mmSees (memTick m rand o i) = mmSees (memPop m o) := by
  unfold mmSees
  rw [(memTick_pins m rand o i).1, (memTick_pins m rand o i).2, memTick_wait, (memPop_rest m o).2.2.1]

theorem loopR_spec (N : Nat) : ∀ (n : Nat) i,
    (mmSees out :: loopR c m rand ops o1 out N)[n]? = some i →
    i = mmSees (((loopX c ops (loopM c o1 (mmSees out) (loopR c m rand ops o1 out N)) N).take n).foldl (memTick m rand) out) := by
  induction N with
  | zero =>
    intro n i hi
    have : n = 0 := by
      have := (List.getElem?_eq_some_iff.1 hi).1
      simp [loopR] at this
      omega
    subst this
    simpa using hi.symm
  | succ N ih =>
    intro n i hi
    rw [loopX_succ]
    have hl := loopR_length c m rand ops o1 out N
    have hx := loopX_length c ops (loopM c o1 (mmSees out) (loopR c m rand ops o1 out N)) N
    by_cases hn : n ≤ N
    · rw [List.take_append_of_le_length (by rw [hx]; exact hn)]
      apply ih n i
      rw [← hi]
      show _ = ((mmSees out :: loopR c m rand ops o1 out N) ++ [_])[n]?
      rw [List.getElem?_append_left (by simp [hl]; omega)]
    · have hn1 : n = N + 1 := by
        have := (List.getElem?_eq_some_iff.1 hi).1
        rw [List.length_cons, loopR_length] at this
        omega
      subst hn1
      rw [List.take_of_length_le (by simp [hx]), List.foldl_append]
      show i = mmSees (memTick m rand _ _)
      rw [mmSees_tick]
      unfold loopR at hi
      rw [← List.cons_append, List.getElem?_append_right (by simp [hl])] at hi
      simpa [hl] using hi.symm

/-! ### What the memory drives -/

theorem memInit_fresh (hb : OneBus c m) (init : Nat → Option Nat) (hinit : ∀ a v, init a = some v → v < 256 ^ (m.width / 8)) (o2 : MemOut)
    (hS : memInit m init o2 = .ok out) : MemFresh m init out.drawn out ∧ (m.hasWait = true → out.waitrequest = .zero) := by
  have hS' : out.mem = init ∧ out.responses = [] ∧ (m.hasWait = true → out.waitrequest = .zero) := by
    unfold memInit at hS
    split at hS
    · cases hS
    · rw [hb.noBurst] at hS
      simp only [Bool.false_and, Bool.false_eq_true, if_false, Except.ok.injEq] at hS
      rw [← hS]
      exact ⟨rfl, rfl, fun h => by simp [h]⟩
  exact ⟨⟨hS'.1, hinit, hS'.2.1, rfl⟩, hS'.2.2⟩

theorem mem_driven (hm : SingleMem m) (init : Nat → Option Nat) (hf : MemFresh m init out.drawn out) (sS : Sim MemIn MemOut) (ho : sS.out = out)
    (hclean : ∀ i ∈ sS.rest, MemClean m i) :
    ∀ n ≤ sS.rest.length, drivenIn (memRespond m rand sS) n = (sS.rest.take n).foldl (memTick m rand) out := by
  obtain ⟨h1, h2, s', h3, -, h4⟩ :=
    memRespond_run m rand hm init sS.out.drawn sS.rest [] sS.phase sS.out sS.prev sS.cur (memInv_init m rand init _ _ (by rw [ho]; exact hf)) hclean
  intro n hn
  unfold drivenIn
  cases hq : (memRespond m rand sS).1[n]? with
  | some q => rw [← ho]; exact h1 n q hq
  | none =>
    rw [List.getElem?_eq_none_iff] at hq
    have h2 : (memRespond m rand sS).1.length = sS.rest.length := h2
    have h3 : (memRespond m rand sS).2 = .blocked s' := h3
    have : n = sS.rest.length := by omega
    rw [h3, this, List.take_length, ← ho]
    exact h4

theorem mmInit_quiet (o1 : MmOut) : Quiet c (mmInit c o1) :=
  ⟨fun h => by simp [mmInit, h], fun h => by simp [mmInit, h], fun w hw => by simp [mmInit, hw]⟩

/-- the two sides of the simulation -/
def loopSimM (N : Nat) : Sim MmIn MmOut := loopM c o1 (mmSees out) (loopR c m rand ops o1 out N)

def loopSimS (N : Nat) : Sim MemIn MemOut :=
  let sM := loopSimM c m rand ops o1 out N
  ⟨.mid, out, memSees (drivenIn (mmUse c ops sM).2 0), memSees (drivenIn (mmUse c ops sM).2 0), loopX c ops sM N⟩

theorem loop_wired (hb : OneBus c m) (hm : SingleMem m) (init : Nat → Option Nat) (hinit : ∀ a v, init a = some v → v < 256 ^ (m.width / 8))
    (o2 : MemOut) (hS : memInit m init o2 = .ok out) (N : Nat) :
    Wired (loopSimM c m rand ops o1 out N) (mmUse c ops (loopSimM c m rand ops o1 out N)).2 (loopSimS c m rand ops o1 out N)
      (memRespond m rand (loopSimS c m rand ops o1 out N)) := by
  have hlen : (loopSimS c m rand ops o1 out N).rest.length = N := loopX_length c ops _ N
  refine ⟨?_, ?_, ?_⟩
  · rw [hlen]; exact (loopR_length c m rand ops o1 out N).symm
  · intro n i hi
    have hn := (List.getElem?_eq_some_iff.1 hi).1
    have hn : n < (loopR c m rand ops o1 out N).length + 1 := hn
    rw [loopR_length] at hn
    rw [mem_driven m rand out hm init (memInit_fresh c m out hb init hinit o2 hS).1 _ rfl ?_ n (by rw [hlen]; omega)]
    · exact loopR_spec c m rand ops o1 out N n i hi
    · intro i hi
      obtain ⟨k, -, hk⟩ := List.mem_map.1 hi
      rw [← hk]
      exact (drivenIn_safe c ops _ (mmInit_quiet c o1) _).clean hb
  · intro n i hi
    cases n with
    | zero => simpa [loopSimS] using hi.symm
    | succ n =>
      have hi : (loopX c ops (loopSimM c m rand ops o1 out N) N)[n]? = some i := hi
      unfold loopX at hi
      rw [List.getElem?_map] at hi
      cases hr : (List.range N)[n]? with
      | none => rw [hr] at hi; cases hi
      | some k =>
        rw [hr] at hi
        have := (List.getElem?_eq_some_iff.1 hr)
        obtain ⟨h1, h2⟩ := this
        rw [List.getElem_range] at h2
        subst h2
        exact (Option.some.inj hi).symm

/-- there is a simulation of every length -/
theorem wired_exists (hb : OneBus c m) (hm : SingleMem m) (init : Nat → Option Nat) (hinit : ∀ a v, init a = some v → v < 256 ^ (m.width / 8))
    (o2 : MemOut) (hS : memInit m init o2 = .ok out) (N : Nat) :
    ∃ (sM : Sim MmIn MmOut) (sS : Sim MemIn MemOut), sM.out = mmInit c o1 ∧ sS.out = out ∧ sM.rest.length = N ∧
      Wired sM (mmUse c ops sM).2 sS (memRespond m rand sS) :=
  ⟨_, _, rfl, rfl, loopR_length c m rand ops o1 out N, loop_wired c m rand ops o1 out hb hm init hinit o2 hS N⟩

end CocotbBus
