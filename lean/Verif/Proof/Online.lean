import Verif.Proof.Scoreboard
import Verif.Spec.Online
import Verif.Model.RefModel

/-! # Online expected output -/

namespace CocotbBus
open Spec
variable {T : Type}

/-- a reception runs the callbacks of the monitor and leaves them as they are -/
theorem receive_sb (w : World T) (mid : Nat) (t : T) : (w.receive mid t).1.sb = (runCallbacks (w.mons mid).callbacks t w.sb).1 := by
  show ((w.mons mid).recv t w.sb).2.1 = _
  unfold Monitor.recv
  simp only
  split <;> simp_all

theorem receive_callbacks (w : World T) (mid k : Nat) (t : T) : ((w.receive mid t).1.mons k).callbacks = (w.mons k).callbacks := by
  have hcb : ∀ m : Monitor T (SB T), ∀ sb : SB T, (m.recv t sb).1.callbacks = m.callbacks := by
    intro m sb
    unfold Monitor.recv
    simp only
    split
    · rfl
    · split <;> split <;> rfl
  unfold World.receive World.setMon
  simp only
  by_cases hk : k = mid
  · subst hk; simp [hcb]
  · simp [hk]

/-- a reception by an in-order interface without recorded errors -/
theorem receive_online (ops : TxnOps T) (info : MonInfo) (hname : info.name ≠ none) (w : World T) (mid ref : Nat) (strict : Bool) (t : T)
    (hcb : (w.mons mid).callbacks = [checkReceived ops info (.list ref) 0 strict]) (h0 : w.sb.errors = 0) :
    ((w.receive mid t).1.sb.errors = 0 ↔ ∃ e E, w.sb.heap ref = e :: E ∧ Accepts ops strict t e) ∧
    (∀ e E, w.sb.heap ref = e :: E → (w.receive mid t).1.sb.heap ref = E) ∧
    (∀ r, r ≠ ref → (w.receive mid t).1.sb.heap r = w.sb.heap r) := by
  have hrun : (w.receive mid t).1.sb = (checkReceived ops info (.list ref) 0 strict t w.sb).1 := by
    rw [receive_sb, hcb]
    simp only [runCallbacks]
    cases hc : checkReceived ops info (.list ref) 0 strict t w.sb with
    | mk a b => cases b <;> rfl
  rw [hrun]
  cases hE : w.sb.heap ref with
  | nil =>
    obtain ⟨msg, hc⟩ := check_empty ops info hname ref 0 strict t w.sb hE
    rw [hc]
    refine ⟨by simp, by simp, fun r _ => rfl⟩
  | cons e E =>
    obtain ⟨e', he, hc⟩ := check_nonempty ops info hname ref 0 strict t w.sb (by rw [hE]; simp)
    rw [hE, reorderIndex_zero] at he hc
    have he' : e = e' := by simpa using he
    subst he'
    rw [hc]
    simp only [List.eraseIdx_zero, List.tail_cons]
    by_cases ha : Accepts ops strict t e
    · rw [compare_accept _ _ _ _ _ ha]
      refine ⟨by simp [SB.setList, h0, ha], ?_, fun r hr => by simp [SB.setList, hr]⟩
      intro e' E' h
      injection h with _ h
      rw [setList_heap, h]
    · obtain ⟨msg, hm⟩ := compare_reject ops (w.sb.setList ref E) t e strict ha
      rw [hm]
      refine ⟨by simp [ha], ?_, fun r hr => by simp [SB.setList, hr]⟩
      intro e' E' h
      injection h with _ h
      simp only
      rw [setList_heap, h]

/-- the expected list of one interface over a history without errors -/
def Tracks (ops : TxnOps T) (i : Iface) : List T → List (SbOp T) → Prop
  | E, [] => E = []
  | E, .recv m t :: r => if m = i.mid then (∃ e E', E = e :: E' ∧ Accepts ops i.strict t e ∧ Tracks ops i E' r) else Tracks ops i E r
  | E, .extend rf ts :: r => Tracks ops i (if rf = i.ref then E ++ ts else E) r

theorem playSb_tracks (ops : TxnOps T) (info : MonInfo) (hname : info.name ≠ none) (ifs : List Iface)
    (hmid : (ifs.map Iface.mid).Nodup) (href : (ifs.map Iface.ref).Nodup) (hd : ∀ i ∈ ifs, i.depth = 0) (h : List (SbOp T)) : ∀ (w : World T),
    Wired ops info ifs w → w.sb.errors = 0 →
    (((playSb h w).sb.errors = 0 ∧ ∀ i ∈ ifs, (playSb h w).sb.heap i.ref = []) ↔ ∀ i ∈ ifs, Tracks ops i (w.sb.heap i.ref) h) := by
  induction h with
  | nil => intro w hw h0; simp [playSb, Tracks, h0]
  | cons o r ih =>
    intro w hw h0
    cases o with
    | extend ref ts =>
      have hw' : Wired ops info ifs { w with sb := w.sb.setList ref (w.sb.heap ref ++ ts) } := hw
      have := ih _ hw' h0
      rw [show playSb (.extend ref ts :: r) w = playSb r { w with sb := w.sb.setList ref (w.sb.heap ref ++ ts) } from rfl, this]
      refine forall_congr' fun i => forall_congr' fun hi => ?_
      show Tracks ops i (if i.ref = ref then w.sb.heap ref ++ ts else w.sb.heap i.ref) r ↔ Tracks ops i (if ref = i.ref then w.sb.heap i.ref ++ ts else w.sb.heap i.ref) r
      by_cases hr : ref = i.ref
      · subst hr; simp
      · rw [if_neg hr, if_neg (fun e => hr e.symm)]
    | recv mid t =>
      obtain ⟨r1, r2, r3, r4, r5⟩ := receive_wired ops info hname ifs w hw mid t
      rw [show playSb (.recv mid t :: r) w = playSb r (w.receive mid t).1 from rfl]
      by_cases hm : mid ∈ ifs.map Iface.mid
      · obtain ⟨j, hj, hjm⟩ := List.mem_map.1 hm
        have hcb := hw.1 j hj
        rw [hjm, hd j hj] at hcb
        obtain ⟨o1, o2, o3⟩ := receive_online ops info hname w mid j.ref j.strict t hcb h0
        have hother : ∀ i ∈ ifs, i ≠ j → mid ≠ i.mid ∧ i.ref ≠ j.ref := by
          intro i hi hij
          exact ⟨fun e => hij (eq_of_nodup_map Iface.mid ifs hmid i j hi hj (by rw [hjm]; exact e.symm)), fun e => hij (eq_of_nodup_map Iface.ref ifs href i j hi hj e)⟩
        by_cases he : (w.receive mid t).1.sb.errors = 0
        · rw [ih _ r1 he]
          obtain ⟨e, E, hE, hacc⟩ := o1.1 he
          refine forall_congr' fun i => forall_congr' fun hi => ?_
          by_cases hij : i = j
          · subst hij
            rw [o2 e E hE]
            simp only [Tracks, hjm, if_true]
            rw [hE]
            constructor
            · intro h; exact ⟨e, E, rfl, hacc, h⟩
            · rintro ⟨e', E', h1, _, h2⟩
              injection h1 with _ h1
              rw [h1]; exact h2
          · obtain ⟨n1, n2⟩ := hother i hi hij
            rw [o3 i.ref n2]
            simp only [Tracks, if_neg n1]
        · constructor
          · rintro ⟨h1, _⟩
            have := (playSb_balance ops info hname ifs href r _ r1).2.1
            omega
          · intro h
            have := h j hj
            simp only [Tracks, hjm, if_true] at this
            obtain ⟨e, E', h1, h2, _⟩ := this
            exact absurd (o1.2 ⟨e, E', h1, h2⟩) he
      · have hs := r4 hm
        rw [ih _ r1 (by rw [hs]; exact h0), hs]
        refine forall_congr' fun i => forall_congr' fun hi => ?_
        have : mid ≠ i.mid := fun e => hm (e ▸ List.mem_map.2 ⟨i, hi, rfl⟩)
        simp only [Tracks, if_neg this]

theorem receivedOf_append (mid : Nat) (a b : List (SbOp T)) : receivedOf mid (a ++ b) = receivedOf mid a ++ receivedOf mid b := by
  induction a with
  | nil => rfl
  | cons o a ih => cases o <;> simp only [List.cons_append, receivedOf, ih] <;> split <;> rfl

theorem addedTo_append (ref : Nat) (a b : List (SbOp T)) : addedTo ref (a ++ b) = addedTo ref a ++ addedTo ref b := by
  induction a with
  | nil => rfl
  | cons o a ih => cases o <;> simp only [List.cons_append, addedTo, ih] <;> split <;> simp

theorem AllAccepted.cons_iff (ops : TxnOps T) (strict : Bool) (t e : T) (R E : List T) :
    AllAccepted ops strict (t :: R) (e :: E) ↔ Accepts ops strict t e ∧ AllAccepted ops strict R E := by
  constructor
  · rintro ⟨h1, h2⟩
    refine ⟨h2 0 (by simp) (by simp), by simpa using h1, fun k g1 g2 => ?_⟩
    have := h2 (k + 1) (by simpa using g1) (by simpa using g2)
    simpa using this
  · rintro ⟨h0, h1, h2⟩
    refine ⟨by simp [h1], fun k g1 g2 => ?_⟩
    cases k with
    | zero => exact h0
    | succ k => simpa using h2 k (by simpa using g1) (by simpa using g2)

/-- what it means that an interface follows its expected list -/
theorem tracks_iff (ops : TxnOps T) (i : Iface) (h : List (SbOp T)) : ∀ E : List T,
    Tracks ops i E h ↔ InTime E i.mid i.ref h ∧ AllAccepted ops i.strict (receivedOf i.mid h) (E ++ addedTo i.ref h) := by
  induction h with
  | nil =>
    intro E
    show E = [] ↔ _
    constructor
    · rintro rfl
      refine ⟨fun p t q h => ?_, rfl, fun k h1 => ?_⟩
      · cases p <;> cases h
      · cases h1
    · rintro ⟨_, h, _⟩
      simp [receivedOf, addedTo] at h
      exact List.length_eq_zero_iff.1 h.symm
  | cons o r ih =>
    intro E
    cases o with
    | extend rf ts =>
      show Tracks ops i (if rf = i.ref then E ++ ts else E) r ↔ _
      rw [ih]
      have hin : InTime (if rf = i.ref then E ++ ts else E) i.mid i.ref r ↔ InTime E i.mid i.ref (.extend rf ts :: r) := by
        constructor
        · intro h p t q e
          cases p with
          | nil => cases e
          | cons x p =>
            injection e with e1 e2
            subst e1
            have := h p t q e2
            simp only [receivedOf, addedTo]
            split <;> simp_all <;> omega
        · intro h p t q e
          have := h (.extend rf ts :: p) t q (by rw [e]; rfl)
          simp only [receivedOf, addedTo] at this
          split <;> simp_all <;> omega
      rw [hin]
      have : (if rf = i.ref then E ++ ts else E) ++ addedTo i.ref r = E ++ addedTo i.ref (.extend rf ts :: r) := by
        simp only [addedTo]; split <;> simp
      rw [this]
      rfl
    | recv m t =>
      by_cases hm : m = i.mid
      · simp only [Tracks, hm, if_true, receivedOf]
        constructor
        · rintro ⟨e, E', rfl, h1, h2⟩
          obtain ⟨h3, h4⟩ := (ih E').1 h2
          refine ⟨?_, ?_⟩
          · intro p t' q e'
            cases p with
            | nil => simp [receivedOf]; omega
            | cons x p =>
              injection e' with e1 e2
              subst e1
              have := h3 p t' q e2
              simp only [receivedOf, addedTo, if_true, List.length_cons]
              omega
          · show AllAccepted ops i.strict (t :: receivedOf i.mid r) (e :: (E' ++ addedTo i.ref r))
            rw [AllAccepted.cons_iff]
            exact ⟨h1, h4⟩
        · rintro ⟨h1, h2⟩
          have h0 := h1 [] t r rfl
          cases E with
          | nil => simp [receivedOf, addedTo] at h0
          | cons e E' =>
            have h3 : AllAccepted ops i.strict (t :: receivedOf i.mid r) (e :: (E' ++ addedTo i.ref r)) := h2
            rw [AllAccepted.cons_iff] at h3
            refine ⟨e, E', rfl, h3.1, (ih E').2 ⟨?_, h3.2⟩⟩
            intro p t' q e'
            have := h1 (.recv i.mid t :: p) t' q (by rw [e']; rfl)
            simp only [receivedOf, addedTo, if_true, List.length_cons] at this
            omega
      · simp only [Tracks, if_neg hm, receivedOf]
        rw [ih]
        have : InTime E i.mid i.ref r ↔ InTime E i.mid i.ref (.recv m t :: r) := by
          constructor
          · intro h p t' q e
            cases p with
            | nil => injection e with e1; injection e1 with e1; exact absurd e1 hm
            | cons x p =>
              injection e with e1 e2
              subst e1
              have := h p t' q e2
              simpa only [receivedOf, addedTo, if_neg hm] using this
          · intro h p t' q e
            have := h (.recv m t :: p) t' q (by rw [e]; rfl)
            simpa only [receivedOf, addedTo, if_neg hm] using this
        rw [this]
        rfl

/-- the verdict is success if and only if no error was recorded and nothing is left -/
theorem result_ok_iff (sb : SB T) (ifs : List Iface) (h : sb.expected = ifs.map (fun i => (i.mid, .list i.ref))) :
    sb.result = .ok () ↔ sb.errors = 0 ∧ ∀ i ∈ ifs, sb.heap i.ref = [] := by
  have hp : sb.pending = true ↔ ∃ i ∈ ifs, sb.heap i.ref ≠ [] := by
    simp only [SB.pending, h, List.any_map, List.any_eq_true, Function.comp_def]
    simp
  unfold SB.result
  by_cases hpend : sb.pending = true
  · rw [if_pos hpend]
    obtain ⟨i, hi, hne⟩ := hp.1 hpend
    simp only [reduceCtorEq, false_iff, not_and]
    exact fun _ hall => hne (hall i hi)
  · rw [if_neg hpend]
    have hall : ∀ i ∈ ifs, sb.heap i.ref = [] := by
      intro i hi
      cases hh : sb.heap i.ref with
      | nil => rfl
      | cons e E => exact absurd (hp.2 ⟨i, hi, by rw [hh]; simp⟩) hpend
    by_cases he : sb.errors = 0
    · rw [if_neg (by simpa using he)]
      exact ⟨fun _ => ⟨he, hall⟩, fun _ => rfl⟩
    · rw [if_pos he]
      simp [he]

/-! ### Reference models -/

/-- the events as the scoreboard sees them -/
def asSb (outMon ref : Nat) (f : T → T) : Bool → List (IoOp T) → List (SbOp T)
  | _, [] => []
  | stopped, .input t :: r => if stopped then asSb outMon ref f stopped r else .extend ref [f t] :: asSb outMon ref f stopped r
  | stopped, .output t :: r => .recv outMon t :: asSb outMon ref f stopped r
  | _, .stop :: r => asSb outMon ref f true r

theorem receivedOf_io (outMon ref : Nat) (f : T → T) (h : List (IoOp T)) : ∀ b, receivedOf outMon (asSb outMon ref f b h) = outputsOf h := by
  induction h with
  | nil => intro b; rfl
  | cons o h ih => intro b; cases o <;> cases b <;> simp [asSb, receivedOf, outputsOf, ih]

theorem addedTo_stopped (outMon ref : Nat) (f : T → T) (h : List (IoOp T)) : addedTo ref (asSb outMon ref f true h) = [] := by
  induction h with
  | nil => rfl
  | cons o h ih => cases o <;> simp [asSb, addedTo, ih]

theorem addedTo_io (outMon ref : Nat) (f : T → T) (h : List (IoOp T)) : addedTo ref (asSb outMon ref f false h) = (inputsOf h).map f := by
  induction h with
  | nil => rfl
  | cons o h ih => cases o <;> simp [asSb, addedTo, inputsOf, ih, addedTo_stopped]

theorem asSb_append (outMon ref : Nat) (f : T → T) (p q : List (IoOp T)) : ∀ b, ∃ b', asSb outMon ref f b (p ++ q) = asSb outMon ref f b p ++ asSb outMon ref f b' q := by
  induction p with
  | nil => intro b; exact ⟨b, rfl⟩
  | cons o p ih =>
    intro b
    cases o with
    | input t =>
      obtain ⟨b', h⟩ := ih b
      refine ⟨b', ?_⟩
      simp only [List.cons_append, asSb, h]
      split <;> rfl
    | output t =>
      obtain ⟨b', h⟩ := ih b
      exact ⟨b', by simp only [List.cons_append, asSb, h]⟩
    | stop =>
      obtain ⟨b', h⟩ := ih true
      exact ⟨b', by simp only [List.cons_append, asSb, h]⟩

/-- every reception the scoreboard sees is an output -/
theorem asSb_split (outMon ref : Nat) (f : T → T) (h : List (IoOp T)) : ∀ (b : Bool) (P : List (SbOp T)) (t : T) (Q : List (SbOp T)),
    asSb outMon ref f b h = P ++ .recv outMon t :: Q → ∃ p q, h = p ++ .output t :: q ∧ asSb outMon ref f b p = P := by
  induction h with
  | nil => intro b P t Q e; cases P <;> cases e
  | cons o h ih =>
    intro b P t Q e
    cases o with
    | stop =>
      obtain ⟨p, q, h1, h2⟩ := ih true P t Q e
      exact ⟨.stop :: p, q, by rw [h1]; rfl, h2⟩
    | output u =>
      cases P with
      | nil =>
        injection e with e1 e2
        injection e1 with _ e1
        subst e1
        exact ⟨[], h, rfl, rfl⟩
      | cons x P =>
        injection e with e1 e2
        obtain ⟨p, q, h1, h2⟩ := ih b P t Q e2
        exact ⟨.output u :: p, q, by rw [h1]; rfl, by rw [← e1, ← h2]; rfl⟩
    | input u =>
      cases b with
      | true =>
        obtain ⟨p, q, h1, h2⟩ := ih true P t Q e
        exact ⟨.input u :: p, q, by rw [h1]; rfl, h2⟩
      | false =>
        cases P with
        | nil => injection e with e1; cases e1
        | cons x P =>
          injection e with e1 e2
          obtain ⟨p, q, h1, h2⟩ := ih false P t Q e2
          exact ⟨.input u :: p, q, by rw [h1]; rfl, by rw [← e1, ← h2]; rfl⟩

theorem inTime_io (E0 : List T) (outMon ref : Nat) (f : T → T) (h : List (IoOp T)) :
    InTime E0 outMon ref (asSb outMon ref f false h) ↔ ∀ p t q, h = p ++ .output t :: q → (outputsOf p).length < E0.length + (inputsOf p).length := by
  constructor
  · intro hi p t q e
    obtain ⟨b', hb⟩ := asSb_append outMon ref f p (.output t :: q) false
    have := hi (asSb outMon ref f false p) t (asSb outMon ref f b' q) (by rw [e, hb]; rfl)
    rwa [receivedOf_io, addedTo_io, List.length_map] at this
  · intro hi P t Q e
    obtain ⟨p, q, h1, h2⟩ := asSb_split outMon ref f h false P t Q e
    have := hi p t q h1
    rw [← h2, receivedOf_io, addedTo_io, List.length_map]
    exact this

/-- the two monitors of a testbench with a reference model, next to a world where the test extends the expected list itself -/
def RefLike (inMon outMon ref : Nat) (f : T → T) (b : Bool) (w v : World T) : Prop :=
  w.sb = v.sb ∧ (w.mons outMon).callbacks = (v.mons outMon).callbacks ∧ (w.mons inMon).callbacks = [refModel ref f b]

theorem playIo_refLike (inMon outMon ref : Nat) (hne : inMon ≠ outMon) (f : T → T) (h : List (IoOp T)) : ∀ (b : Bool) (w v : World T),
    RefLike inMon outMon ref f b w v → (playIo inMon outMon ref f h w).sb = (playSb (asSb outMon ref f b h) v).sb := by
  induction h with
  | nil => intro b w v hr; exact hr.1
  | cons o h ih =>
    intro b w v hr
    obtain ⟨h1, h2, h3⟩ := hr
    cases o with
    | stop =>
      refine ih true _ v ⟨h1, ?_, ?_⟩
      · show ((w.setMon inMon _).mons outMon).callbacks = _
        simp only [World.setMon, if_neg hne.symm]
        exact h2
      · simp [World.setMon]
    | output t =>
      refine ih b _ (v.receive outMon t).1 ⟨?_, ?_, ?_⟩
      · rw [receive_sb, receive_sb, h1, h2]
      · rw [receive_callbacks, receive_callbacks, h2]
      · rw [receive_callbacks, h3]
    | input t =>
      have hsb : (w.receive inMon t).1.sb = (refModel ref f b t w.sb).1 := by
        rw [receive_sb, h3]
        cases b <;> rfl
      cases b with
      | true =>
        refine ih true _ v ⟨?_, ?_, ?_⟩
        · rw [hsb]; exact h1
        · rw [receive_callbacks, h2]
        · rw [receive_callbacks, h3]
      | false =>
        refine ih false _ { v with sb := v.sb.setList ref (v.sb.heap ref ++ [f t]) } ⟨?_, ?_, ?_⟩
        · rw [hsb, h1]; rfl
        · rw [receive_callbacks, h2]
        · rw [receive_callbacks, h3]

/-- outputs come after inputs, `n` of which were before -/
def Credit (n : Nat) (h : List (IoOp T)) : Prop := ∀ p t q, h = p ++ .output t :: q → (outputsOf p).length < n + (inputsOf p).length

theorem Credit.input {n : Nat} {t : T} {r : List (IoOp T)} (h : Credit (n + 1) r) : Credit n (.input t :: r) := by
  intro p u q e
  cases p with
  | nil => injection e with e; cases e
  | cons x p =>
    injection e with e1 e2
    subst e1
    have := h p u q e2
    simp only [outputsOf, inputsOf, List.length_cons]
    omega

theorem Credit.output {n : Nat} {t : T} {r : List (IoOp T)} (h : Credit n r) : Credit (n + 1) (.output t :: r) := by
  intro p u q e
  cases p with
  | nil => simp [outputsOf, inputsOf]
  | cons x p =>
    injection e with e1 e2
    subst e1
    have := h p u q e2
    simp only [outputsOf, inputsOf, List.length_cons]
    omega

theorem outputsOf_append (a b : List (IoOp T)) : outputsOf (a ++ b) = outputsOf a ++ outputsOf b := by
  induction a with
  | nil => rfl
  | cons o a ih => cases o <;> simp [outputsOf, ih]

theorem Credit.stop {n : Nat} {r : List (IoOp T)} (h : (outputsOf r).length ≤ n) : Credit n (.stop :: r) := by
  intro p u q e
  cases p with
  | nil => injection e with e; cases e
  | cons x p =>
    injection e with e1 e2
    subst e1
    have hl := congrArg (fun l => (outputsOf l).length) (show r = p ++ .output u :: q from e2)
    simp only [outputsOf_append, outputsOf, List.length_append, List.length_cons] at hl
    simp only [outputsOf, inputsOf, List.length_nil]
    omega

theorem dffTest_cons (x : Bool × T × T) (es : List (Bool × T × T)) (last : Bool × T × T) : dffTest (x :: es) last = dffEdge x ++ dffTest es last := by
  simp [dffTest]

theorem dff_credit (last : Bool × T × T) (es : List (Bool × T × T)) : Credit 1 (dffTest es last) := by
  induction es with
  | nil =>
    obtain ⟨b, d, q⟩ := last
    refine Credit.stop ?_
    cases b <;> simp [dffEdge, outputsOf]
  | cons x es ih =>
    rw [dffTest_cons]
    obtain ⟨b, d, q⟩ := x
    cases b
    · exact Credit.output (Credit.input ih)
    · exact Credit.input (Credit.output ih)

theorem dff_outputs (last : Bool × T × T) (es : List (Bool × T × T)) : outputsOf (dffTest es last) = (es ++ [last]).map (fun e => e.2.2) := by
  induction es with
  | nil => obtain ⟨b, d, q⟩ := last; cases b <;> rfl
  | cons x es ih =>
    rw [dffTest_cons, outputsOf_append, ih]
    obtain ⟨b, d, q⟩ := x
    cases b <;> rfl

theorem dff_inputs (last : Bool × T × T) (es : List (Bool × T × T)) : inputsOf (dffTest es last) = es.map (fun e => e.2.1) := by
  induction es with
  | nil => rfl
  | cons x es ih =>
    rw [dffTest_cons]
    obtain ⟨b, d, q⟩ := x
    cases b <;> simp [dffEdge, inputsOf, ih]

end CocotbBus
