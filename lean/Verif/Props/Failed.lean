import Verif.Model.Failed
import Verif.Props.Session

/-! # C97, C98: constructors and registrations that fail -/

namespace CocotbBus
open Spec Coro

/-! ### C97 -/

/-- C97 is false of the code: whenever the constructor of the packet monitor rejects the channel signal (too wide, or `maxChannel` too big
for it), the monitor runs all the same: whatever happens on the bus, it reports what the monitor would report had it been constructed. -/
theorem C97_runs (c : PkCfg) (w : Nat) (hw : c.channelW = some w) (he : c.useEmpty = true → c.emptyW ≠ none) (hbad : 128 < w ∨ 2 ^ w - 1 < c.maxChannel) :
    (∃ e, (pkNewMonitor c).1 = .error e) ∧ ∀ t st, pkTaskMonitor (pkNewMonitor c).2 t st = pkMonitor c t st := by
  have h1 : ¬ (c.reportChannel = true ∧ c.channelW = none) := by simp [hw]
  have h2 : ¬ (c.useEmpty = true ∧ c.emptyW = none) := fun h => he h.1 h.2
  constructor
  · simp only [pkNewMonitor, pkInit, hw]
    rw [if_neg (by simp), if_neg h2]
    rcases hbad with h | h
    · exact ⟨_, by rw [if_pos h]⟩
    · rw [if_pos h]
      split <;> exact ⟨_, rfl⟩
  · intro t st
    have ht : (pkNewMonitor c).2 = ⟨c, true⟩ := by
      simp only [pkNewMonitor]
      rw [if_neg h1, if_neg h2]
    rw [ht]
    induction t generalizing st with
    | nil => rfl
    | cons r t ih =>
      obtain ⟨o, i⟩ := r
      simp only [pkTaskMonitor, pkMonitor, pkTaskStep, Bool.not_true, Bool.false_and, Bool.false_eq_true, if_false]
      cases pkStep c st o i with
      | error e => rfl
      | ok x => simp only [ih]

/-- an 8-bit bus with a 4-bit channel and `maxChannel=20`, without `ready` -/
def exFailCfg : PkCfg := { width := 8, hasReady := false, emptyW := none, channelW := some 4, maxChannel := 20 }

example : exFailCfg.channelW = some 4 ∧ (exFailCfg.useEmpty = true → exFailCfg.emptyW ≠ none) ∧ 2 ^ 4 - 1 < exFailCfg.maxChannel := by
  refine ⟨rfl, ?_, ?_⟩ <;> decide

/-- C97 is false of the code: the constructor raises AttributeError, and later the callback is called with a packet. -/
theorem C97_violated : ∃ (c : PkCfg) (t : List (PkOut × PkIn)), (pkNewMonitor c).1 = .error .attributeError ∧
    (pkTaskMonitor (pkNewMonitor c).2 t {}).1 = [⟨[0x41], none⟩] :=
  ⟨exFailCfg, [(⟨.one, .one, .one, natToBits 8 0x41, [], natToBits 4 3⟩, ⟨.x, none, none⟩)], by decide, by decide +kernel⟩

/-- C97, proved part: after the other two errors (channel reporting without a channel, several symbols without `empty`) nothing is ever
reported. Missing: errors about the channel (`C97_runs`). -/
theorem C97_silent_partial (c : PkCfg) (h : (c.reportChannel = true ∧ c.channelW = none) ∨ (c.useEmpty = true ∧ c.emptyW = none))
    (t : List (PkOut × PkIn)) (st : PkState) :
    (∃ e, (pkNewMonitor c).1 = .error e) ∧ (pkTaskMonitor (pkNewMonitor c).2 t st).1 = [] := by
  constructor
  · simp only [pkNewMonitor, pkInit]
    by_cases h1 : c.reportChannel = true ∧ c.channelW = none
    · exact ⟨_, by rw [if_pos ⟨trivial, h1⟩]⟩
    · rw [if_neg (fun g => h1 g.2), if_pos (h.resolve_left h1)]
      exact ⟨_, rfl⟩
  · have hk : (pkNewMonitor c).2.emptyKey = false := by
      simp only [pkNewMonitor]
      by_cases h1 : c.reportChannel = true ∧ c.channelW = none
      · rw [if_pos h1]
      · rw [if_neg h1, if_pos (h.resolve_left h1)]
    generalize (pkNewMonitor c).2 = k at hk
    induction t generalizing st with
    | nil => rfl
    | cons r t ih =>
      obtain ⟨o, i⟩ := r
      simp only [pkTaskMonitor, pkTaskStep, hk, Bool.not_false, Bool.true_and]
      by_cases hl : pkAtLast k.cfg st o i = true
      · rw [if_pos hl]
      · rw [if_neg hl]
        cases hs : pkStep k.cfg st o i with
        | error e => rfl
        | ok x =>
          obtain ⟨st', rep⟩ := x
          have : rep = none := by
            unfold pkStep at hs
            cases hr : inReset i.resetN i.reset with
            | error e => rw [hr] at hs; cases hs
            | ok b =>
              rw [hr] at hs
              cases b with
              | true => cases hs; rfl
              | false =>
                simp only at hs
                by_cases hv : pkValid k.cfg o i = true
                · rw [if_pos hv] at hs
                  by_cases hd : o.sop = .one ∧ st.pkt ≠ []
                  · rw [if_pos hd] at hs; cases hs
                  · rw [if_neg hd] at hs
                    by_cases hsop : o.sop = .one
                    · simp only [if_pos hsop] at hs
                      by_cases heop : o.eop = .one
                      · exfalso
                        apply hl
                        simp only [not_and, Decidable.not_not] at hd
                        simp [pkAtLast, hr, hv, hsop, heop, hd hsop]
                      · simp only [heop, not_false_eq_true, ne_eq, if_true, Bool.true_eq_false, if_false] at hs
                        repeat' split at hs
                        all_goals first | (cases hs; rfl) | cases hs
                    · simp only [if_neg hsop] at hs
                      by_cases hin : st.inPkt = true
                      · simp only [hin, Bool.true_eq_false, if_false] at hs
                        by_cases heop : o.eop = .one
                        · exfalso
                          apply hl
                          simp [pkAtLast, hr, hv, hsop, heop, hin]
                        · simp only [heop, not_false_eq_true, ne_eq, if_true] at hs
                          repeat' split at hs
                          all_goals first | (cases hs; rfl) | cases hs
                      · simp only [Bool.not_eq_true] at hin
                        rw [if_pos hin] at hs
                        cases hs
                · rw [if_neg hv] at hs
                  repeat' split at hs
                  all_goals first | (cases hs; rfl) | cases hs
          subst this
          simp only [Option.toList_none, List.nil_append]
          exact ih st'

-- 16 bits without `empty`: the coroutine ends with KeyError at the first last beat
example : let c : PkCfg := { width := 16, hasReady := false, emptyW := none, channelW := none }
    (pkNewMonitor c).1 = .error .attributeError ∧
    pkTaskMonitor (pkNewMonitor c).2 [(⟨.one, .one, .one, natToBits 16 0x41, [], []⟩, ⟨.x, none, none⟩)] {} = ([], .error .keyError) := by
  refine ⟨?_, ?_⟩ <;> decide +kernel

/-- C97, after these two errors: up to the first end of a packet (a valid word outside reset) the coroutine runs like any monitor ... -/
theorem C97_until_end (k : PkTask) (t : List (PkOut × PkIn))
    (ht : ∀ q ∈ t, q.1.eop ≠ .one ∨ pkValid k.cfg q.1 q.2 = false ∨ inReset q.2.resetN q.2.reset ≠ .ok false) : ∀ st : PkState,
    pkTaskMonitor k t st = pkMonitor k.cfg t st := by
  induction t with
  | nil => intro st; rfl
  | cons q t ih =>
    intro st
    obtain ⟨o, i⟩ := q
    have hl : pkAtLast k.cfg st o i = false := by
      rcases ht (o, i) (by simp) with h | h | h
      · have h : (o.eop == Logic.one) = false := by simpa using h
        simp [pkAtLast, h]
      · simp [pkAtLast, h]
      · cases hq : pkAtLast k.cfg st o i with
        | false => rfl
        | true => simp only [pkAtLast, Bool.and_eq_true, beq_iff_eq] at hq; exact absurd hq.1.1.1.1 h
    simp only [pkTaskMonitor, pkTaskStep, hl, Bool.and_false, Bool.false_eq_true, if_false, pkMonitor]
    cases pkStep k.cfg st o i with
    | error e => rfl
    | ok x =>
      obtain ⟨st', rep⟩ := x
      simp only [ih (fun q hq => ht q (by simp [hq])) st']

/-- ... and there, at a valid last word of a packet (outside reset, inside a packet or starting one), it dies with KeyError. -/
theorem C97_keyerror (k : PkTask) (hk : k.emptyKey = false) (st : PkState) (o : PkOut) (i : PkIn) (t : List (PkOut × PkIn))
    (hr : inReset i.resetN i.reset = .ok false) (hv : pkValid k.cfg o i = true) (he : o.eop = .one)
    (hs : (o.sop = .one ∧ st.pkt = []) ∨ (o.sop ≠ .one ∧ st.inPkt = true)) :
    pkTaskMonitor k ((o, i) :: t) st = ([], .error .keyError) := by
  have hl : pkAtLast k.cfg st o i = true := by
    simp only [pkAtLast, hr, hv, he]
    rcases hs with ⟨h1, h2⟩ | ⟨h1, h2⟩
    · simp [h1, h2]
    · have : (o.sop == Logic.one) = false := by simpa using h1
      simp [this, h2]
  simp only [pkTaskMonitor, pkTaskStep, hk, hl, Bool.not_false, Bool.true_and, if_true]

/-- A valid end of packet outside a packet is no such word: it raises what any monitor raises there. So is a second start of packet. -/
theorem C97_stray (k : PkTask) (st : PkState) (o : PkOut) (i : PkIn)
    (hs : (o.sop = .one ∧ st.pkt ≠ []) ∨ (o.sop ≠ .one ∧ st.inPkt = false)) : pkTaskStep k st o i = pkStep k.cfg st o i := by
  have hl : pkAtLast k.cfg st o i = false := by
    rcases hs with ⟨h1, h2⟩ | ⟨h1, h2⟩
    · have : st.pkt.isEmpty = false := by simpa using h2
      simp [pkAtLast, h1, this]
    · have : (o.sop == Logic.one) = false := by simpa using h1
      simp [pkAtLast, this, h2]
  simp [pkTaskStep, hl]

example : let k := (pkNewMonitor { width := 16, hasReady := false, emptyW := none, channelW := none }).2
    k.emptyKey = false ∧ pkValid k.cfg ⟨.one, .one, .one, natToBits 16 0x41, [], []⟩ ⟨.x, none, none⟩ = true ∧
    inReset (none : Option LogicArray) none = .ok false := by
  refine ⟨?_, ?_, ?_⟩ <;> decide +kernel

/-- C97, proved part: a constructor that returns has started the monitor the other theorems are about. -/
theorem C97_started (c : PkCfg) (h : (pkNewMonitor c).1 = .ok ()) (t : List (PkOut × PkIn)) (st : PkState) :
    pkTaskMonitor (pkNewMonitor c).2 t st = pkMonitor c t st := by
  have h1 : ¬ (c.reportChannel = true ∧ c.channelW = none) := by
    intro g
    simp only [pkNewMonitor, pkInit] at h
    rw [if_pos ⟨trivial, g⟩] at h
    cases h
  have h2 : ¬ (c.useEmpty = true ∧ c.emptyW = none) := by
    intro g
    simp only [pkNewMonitor, pkInit] at h
    rw [if_neg (fun x => h1 x.2), if_pos g] at h
    cases h
  have ht : (pkNewMonitor c).2 = ⟨c, true⟩ := by
    simp only [pkNewMonitor]
    rw [if_neg h1, if_neg h2]
  rw [ht]
  induction t generalizing st with
  | nil => rfl
  | cons r t ih =>
    obtain ⟨o, i⟩ := r
    simp only [pkTaskMonitor, pkMonitor, pkTaskStep, Bool.not_true, Bool.false_and, Bool.false_eq_true, if_false]
    cases pkStep c st o i with
    | error e => rfl
    | ok x => simp only [ih]

example : (pkNewMonitor { exFailCfg with maxChannel := 15 }).1 = .ok () := by decide

/-! ### C98 -/

variable {T σ : Type}

/-- C98 is false of the code: a callable without `__qualname__` (such as `functools.partial(f, x)`) is refused with AttributeError by
every monitor, and is not called for any later transaction. -/
theorem C98_refused (m : Monitor T σ) (c : PyCallable T σ) (h : c.hasQualname = false) : m.addCallable c = (m, some .attributeError) := by
  simp [Monitor.addCallable, h]

/-- C98 is false of the code, and the scoreboard is left behind inconsistent: `add_interface` with such a comparison function raises
AttributeError, but the expected list stays registered: from then on, whatever transactions arrive, nothing is taken off the list, and
the test fails if the list is not empty. -/
theorem C98_violated (imm : Bool) (mid : Nat) (info : MonInfo) (hm : info.isMonitor = true) (E : List T) (hE : E ≠ [])
    (c : PyCallable T (SB T)) (h : c.hasQualname = false) (R : List T) :
    let r := (World.new imm (fun _ => E)).addCompare mid info (.list 0) c
    r.2 = some .attributeError ∧ (r.1.receiveAll mid R 0).2 = none ∧ (r.1.receiveAll mid R 0).1.sb.result ≠ .ok () := by
  intro r
  have hr : r.1.sb = { errors := 0, imm := imm, heap := fun _ => E, expected := [(mid, .list 0)] } ∧ (r.1.mons mid).callbacks = [] := by
    simp [r, World.addCompare, hm, Monitor.addCallable, h, World.new, World.setMon, dictSet]
  refine ⟨by simp [r, World.addCompare, hm, Monitor.addCallable, h], ?_⟩
  have key : ∀ (R : List T) (n : Nat) (w : World T), w.sb = r.1.sb → (w.mons mid).callbacks = [] →
      (w.receiveAll mid R n).2 = none ∧ (w.receiveAll mid R n).1.sb = r.1.sb := by
    intro R
    induction R with
    | nil => intro n w h1 _; exact ⟨rfl, h1⟩
    | cons t R ih =>
      intro n w h1 h2
      have h3 : (w.receive mid t).2 = none ∧ (w.receive mid t).1.sb = w.sb ∧ ((w.receive mid t).1.mons mid).callbacks = [] := by
        simp only [World.receive, Monitor.recv, h2, runCallbacks, List.isEmpty_nil, if_true, World.setMon]
        split <;> simp
      unfold World.receiveAll
      cases hw : w.receive mid t with
      | mk w' e =>
        rw [hw] at h3
        obtain ⟨rfl, h4, h5⟩ := h3
        exact ih (n + 1) w' (h4.trans h1) h5
  obtain ⟨k1, k2⟩ := key R 0 r.1 rfl hr.2
  refine ⟨k1, ?_⟩
  simp only [SB.result, k2, hr.1, SB.pending, List.any_cons, List.any_nil, Bool.or_false]
  cases E with
  | nil => exact absurd rfl hE
  | cons => simp

/-- C98, proved part: a callable with `__qualname__` is registered like any function: it is called with every later transaction, after the
callbacks registered before it. Missing: other callables (`C98_refused`). -/
theorem C98_functions_partial (m : Monitor T σ) (c : PyCallable T σ) (h : c.hasQualname = true) :
    (m.addCallable c).2 = none ∧ (m.addCallable c).1.callbacks = m.callbacks ++ [c.call] ∧
    ∀ (t : T) (w : σ), (runCallbacks m.callbacks t w).2 = none →
      runCallbacks (m.addCallable c).1.callbacks t w = c.call t (runCallbacks m.callbacks t w).1 := by
  have hm : m.addCallable c = (m.addCallback c.call, none) := by simp [Monitor.addCallable, h]
  rw [hm]
  refine ⟨rfl, rfl, ?_⟩
  intro t w hw
  simp only [Monitor.addCallback]
  generalize m.callbacks = l at hw ⊢
  induction l generalizing w with
  | nil =>
    simp only [List.nil_append, runCallbacks]
    cases hc : c.call t w with
    | mk w' e => cases e <;> rfl
  | cons a l ih =>
    simp only [List.cons_append, runCallbacks] at hw ⊢
    cases ha : a t w with
    | mk w' e =>
      rw [ha] at hw
      cases e with
      | none => exact ih w' hw
      | some e => simp at hw

/-- a comparison function wrapped in `functools.partial` -/
def exPartial : PyCallable Nat (SB Nat) := ⟨false, fun _ sb => (sb, none)⟩

example : ((World.new false (fun _ => [1])).addCompare 0 (busMonitor none) (.list 0) exPartial).2 = some .attributeError ∧
    (((World.new false (fun _ => [1])).addCompare 0 (busMonitor none) (.list 0) exPartial).1.receiveAll 0 [1] 0).1.sb.result ≠ .ok () := by
  refine ⟨?_, ?_⟩ <;> decide

end CocotbBus
