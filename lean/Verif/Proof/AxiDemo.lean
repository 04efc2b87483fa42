import Verif.Proof.AxiLive
import Verif.Spec.AxiDemo

/-! # The AXI4-Lite slave example: the device step by step -/

namespace CocotbBus
open Spec Coro

/-- Between two calls. `hot`: a write has just ended, WREADY is still high. -/
structure DemoDev.Rest (hot : Bool) (r : Regs) (d : DemoDev) : Prop where
  st : d.st = .idle
  bvalid : d.bvalid = false
  rvalid : d.rvalid = false
  inRdy : d.inRdy = false
  ready : d.arready = d.awready
  outReq : d.awready = true → d.outReq = false
  wready : d.wready = hot
  notyet : hot = true → d.awready = false
  t0 : d.temp0 = r.r0
  t1 : d.temp1 = r.r4

/-- A write address has been accepted. -/
structure DemoDev.Recv (a : Nat) (r : Regs) (d : DemoDev) : Prop where
  st : d.st = .receiveWriteData
  bvalid : d.bvalid = false
  rvalid : d.rvalid = false
  inRdy : d.inRdy = false
  outReq : d.outReq = false
  arready : d.arready = false
  wready : d.wready = true
  address : d.address = a
  t0 : d.temp0 = r.r0
  t1 : d.temp1 = r.r4

/-- The write data have been accepted, `n` edges ago. -/
structure DemoDev.Stored (n a v : Nat) (r : Regs) (d : DemoDev) : Prop where
  st : d.st = if n = 2 then .sendWriteResp else .writeWaitForUser
  bvalid : d.bvalid = decide (n = 2)
  bresp : n = 2 → d.bresp = if a > 4 then 3 else 0
  rvalid : d.rvalid = false
  inRdy : d.inRdy = decide (n < 2)
  inAck : n < 2 → d.inAck = decide (n = 1)
  invalid : n = 1 → d.invalidAddr = decide (a > 4)
  outReq : d.outReq = false
  ready : d.awready = false ∧ d.arready = false
  wready : d.wready = true
  address : d.address = a
  data : d.inData = v
  t0 : d.temp0 = if 0 < n ∧ a = 0 then v else r.r0
  t1 : d.temp1 = if 0 < n ∧ a = 4 then v else r.r4

/-- A read address has been accepted, `n` edges ago. -/
structure DemoDev.Fetch (n a : Nat) (r : Regs) (d : DemoDev) : Prop where
  st : d.st = if n = 2 then .sendReadData else .readWaitForUser
  rvalid : d.rvalid = decide (n = 2)
  rresp : n = 2 → d.rresp = if a > 4 then 3 else 0
  rdata : n = 2 → d.rdata = if a = 0 then r.r0 else if a = 4 then r.r4 else 0
  bvalid : d.bvalid = false
  inRdy : d.inRdy = false
  outReq : d.outReq = true
  outRdy : n < 2 → d.outRdy = decide (n = 1)
  outData : n = 1 → d.outData = if a = 0 then r.r0 else if a = 4 then r.r4 else 0
  invalid : n = 1 → d.invalidAddr = decide (a > 4)
  ready : d.awready = false
  arready : 0 < n → d.arready = false
  wready : d.wready = false
  address : d.address = a
  t0 : d.temp0 = r.r0
  t1 : d.temp1 = r.r4

variable {hot : Bool} {r : Regs} {d : DemoDev} {a v n : Nat} {o : AxAll}

/-- the registers after a write of `v` to `a` -/
def Spec.Regs.put (r : Regs) (a v : Nat) : Regs := ⟨if a = 0 then v else r.r0, if a = 4 then v else r.r4⟩

theorem DemoDev.Rest.quiet (h : d.Rest hot r) (h1 : ¬(o.1.1.valid = .one ∧ d.awready = true)) (h2 : ¬(o.2.valid = .one ∧ d.awready = true)) :
    (d.step o).Rest false r ∧ (d.step o).awready = true := by
  obtain ⟨e1, e2, e3, e4, e5, e6, e7, e8, e9, e10⟩ := h
  rw [← e5] at h2
  unfold DemoDev.step DemoDev.slave
  rw [e1]
  simp only [if_neg h1, if_neg h2]
  unfold DemoDev.user
  rw [e4]
  cases hq : d.outReq <;> simp <;> constructor <;> simp_all

theorem DemoDev.Rest.aw (h : d.Rest hot r) (h1 : o.1.1.valid = .one) (h2 : d.awready = true) :
    (d.step o).Recv (bitsToNat o.1.1.addr) r := by
  obtain ⟨e1, e2, e3, e4, e5, e6, e7, e8, e9, e10⟩ := h
  unfold DemoDev.step DemoDev.slave
  rw [e1]
  simp only [if_pos (And.intro h1 h2)]
  unfold DemoDev.user
  rw [e4, e6 h2]
  constructor <;> simp_all

theorem DemoDev.Rest.ar (h : d.Rest hot r) (h1 : ¬o.1.1.valid = .one) (h2 : o.2.valid = .one) (h3 : d.awready = true) :
    (d.step o).Fetch 0 (bitsToNat o.2.addr) r := by
  obtain ⟨e1, e2, e3, e4, e5, e6, e7, e8, e9, e10⟩ := h
  have h3' : d.arready = true := by rw [e5]; exact h3
  unfold DemoDev.step DemoDev.slave
  rw [e1]
  simp only [if_neg (fun h : _ ∧ _ => h1 h.1), if_pos (And.intro h2 h3')]
  unfold DemoDev.user
  rw [e4, e6 h3]
  constructor <;> simp_all

theorem DemoDev.Recv.quiet (h : d.Recv a r) (h1 : ¬o.1.2.valid = .one) : (d.step o).Recv a r := by
  obtain ⟨e1, e2, e3, e4, e5, e6, e7, e8, e9, e10⟩ := h
  unfold DemoDev.step DemoDev.slave
  rw [e1]
  simp only [if_neg h1]
  unfold DemoDev.user
  rw [e4, e5]
  constructor <;> simp_all

theorem DemoDev.Recv.w (h : d.Recv a r) (h1 : o.1.2.valid = .one) : (d.step o).Stored 0 a (bitsToNat o.1.2.data) r := by
  obtain ⟨e1, e2, e3, e4, e5, e6, e7, e8, e9, e10⟩ := h
  unfold DemoDev.step DemoDev.slave
  rw [e1]
  simp only [if_pos h1]
  unfold DemoDev.user
  rw [e4, e5]
  constructor <;> simp_all

theorem DemoDev.Stored.next0 (h : d.Stored 0 a v r) : (d.step o).Stored 1 a v r := by
  obtain ⟨e1, e2, e3, e4, e5, e6, e7, e8, e9, e10, e11, e12, e13, e14⟩ := h
  simp at e1 e2 e5 e6 e13 e14
  unfold DemoDev.step DemoDev.slave
  rw [e1]
  simp only [e6, Bool.false_eq_true, if_false]
  unfold DemoDev.user
  rw [e5]
  constructor <;> simp_all

theorem DemoDev.Stored.next1 (h : d.Stored 1 a v r) : (d.step o).Stored 2 a v r := by
  obtain ⟨e1, e2, e3, e4, e5, e6, e7, e8, e9, e10, e11, e12, e13, e14⟩ := h
  simp at e1 e2 e5 e6 e7 e13 e14
  unfold DemoDev.step DemoDev.slave
  rw [e1]
  simp only [e6, if_true]
  unfold DemoDev.user
  rw [e5]
  constructor <;> simp_all

theorem DemoDev.Stored.next2 (h : d.Stored 2 a v r) : (d.step o).Rest true (r.put a v) := by
  obtain ⟨e1, e2, e3, e4, e5, e6, e7, e8, e9, e10, e11, e12, e13, e14⟩ := h
  simp at e1 e2 e5 e13 e14
  unfold DemoDev.step DemoDev.slave
  rw [e1]
  simp only [e2, if_true]
  unfold DemoDev.user
  rw [e5, e8]
  constructor <;> simp_all [Regs.put]

theorem DemoDev.Fetch.next0 (h : d.Fetch 0 a r) : (d.step o).Fetch 1 a r := by
  obtain ⟨e1, e2, e3, e4, e5, e6, e7, e8, e9, e10, e11, e12, e13, e14, e15, e16⟩ := h
  simp at e1 e2 e8
  unfold DemoDev.step DemoDev.slave
  rw [e1]
  simp only [e8, Bool.false_eq_true, if_false]
  unfold DemoDev.user
  rw [e6, e7]
  constructor <;> simp_all

theorem DemoDev.Fetch.next1 (h : d.Fetch 1 a r) : (d.step o).Fetch 2 a r := by
  obtain ⟨e1, e2, e3, e4, e5, e6, e7, e8, e9, e10, e11, e12, e13, e14, e15, e16⟩ := h
  simp at e1 e2 e8 e9 e10 e12
  unfold DemoDev.step DemoDev.slave
  rw [e1]
  simp only [e8, if_true]
  unfold DemoDev.user
  rw [e6, e7]
  constructor <;> simp_all

theorem DemoDev.Fetch.next2 (h : d.Fetch 2 a r) : (d.step o).Rest false r := by
  obtain ⟨e1, e2, e3, e4, e5, e6, e7, e8, e9, e10, e11, e12, e13, e14, e15, e16⟩ := h
  simp at e1 e2 e3 e4 e12
  unfold DemoDev.step DemoDev.slave
  rw [e1]
  simp only [e2, if_true]
  unfold DemoDev.user
  rw [e6, e7]
  constructor <;> simp_all


/-! ### Traces -/

theorem Logic.ofBool_one (b : Bool) : (Logic.ofBool b == .one) = b := by cases b <;> rfl

theorem xfer_aw (c : AxCfg) (o : AddrOut) (d : DemoDev) : (awStream c).xfer (o, d.pins) = (decide (o.valid = .one) && d.awready) := by
  simp only [Stream.xfer, awStream, DemoDev.pins, Logic.ofBool_one]; rfl

theorem xfer_ar (c : AxCfg) (o : AddrOut) (d : DemoDev) : (arStream c).xfer (o, d.pins) = (decide (o.valid = .one) && d.arready) := by
  simp only [Stream.xfer, arStream, DemoDev.pins, Logic.ofBool_one]; rfl

theorem xfer_w (c : AxCfg) (o : WOut) (d : DemoDev) : (wStream c).xfer (o, d.pins) = (decide (o.valid = .one) && d.wready) := by
  simp only [Stream.xfer, wStream, DemoDev.pins, Logic.ofBool_one]; rfl

theorem bFire_pins (d : DemoDev) : bFire d.pins = d.bvalid := by
  simp [bFire, DemoDev.pins, Logic.ofBool_one]

theorem rFire_pins (d : DemoDev) : rFire d.pins = d.rvalid := by
  simp [rFire, DemoDev.pins, Logic.ofBool_one]

theorem drives_append (t u : List (AxAll × AxIn)) : ∀ d : DemoDev, d.Drives (t ++ u) ↔ d.Drives t ∧ (d.run t).Drives u := by
  induction t with
  | nil => intro d; simp [DemoDev.Drives, DemoDev.run]
  | cons q t ih => intro d; simp only [List.cons_append, DemoDev.Drives, ih, and_assoc]; rfl

theorem demoRun_append (d : DemoDev) (t u : List (AxAll × AxIn)) : d.run (t ++ u) = (d.run t).run u := List.foldl_append

/-- nothing is accepted -/
theorem DemoDev.Rest.run (c : AxCfg) (t : List (AxAll × AxIn)) : ∀ {hot : Bool} {d : DemoDev}, d.Rest hot r → d.Drives t →
    (∀ q ∈ t, (awStream c).xfer (q.1.1.1, q.2) = false ∧ (arStream c).xfer (q.1.2, q.2) = false) →
    (d.run t).Rest (hot && t.isEmpty) r ∧ (t ≠ [] → (d.run t).awready = true) := by
  induction t with
  | nil => intro hot d h _ _; exact ⟨by simpa [DemoDev.run] using h, fun h => absurd rfl h⟩
  | cons q t ih =>
    intro hot d h hd hq
    obtain ⟨q1, q2⟩ := hq q (by simp)
    rw [hd.1, xfer_aw] at q1
    rw [hd.1, xfer_ar, h.ready] at q2
    simp only [Bool.and_eq_false_imp, decide_eq_true_eq] at q1 q2
    obtain ⟨k1, k2⟩ := h.quiet (o := q.1) (fun h => by have := q1 h.1; rw [h.2] at this; cases this) (fun h => by have := q2 h.1; rw [h.2] at this; cases this)
    obtain ⟨k3, k4⟩ := ih k1 hd.2 (fun x hx => hq x (List.mem_cons_of_mem _ hx))
    refine ⟨by simpa [DemoDev.run] using k3, fun _ => ?_⟩
    cases t with
    | nil => exact k2
    | cons x t => exact k4 (by simp)

/-- waiting for the data of a write -/
theorem DemoDev.Recv.run (t : List (AxAll × AxIn)) : ∀ {d : DemoDev}, d.Recv a r → (∀ q ∈ t, ¬q.1.1.2.valid = .one) → (d.run t).Recv a r := by
  induction t with
  | nil => intro d h _; exact h
  | cons q t ih => intro d h hq; exact ih (h.quiet (hq q (by simp))) (fun x hx => hq x (List.mem_cons_of_mem _ hx))

/-- an address that is held is not held for long -/
theorem DemoDev.Rest.held (c : AxCfg) {V : Stream AxIn AddrOut AddrReq} (g : AxAll → AddrOut) (hV : ∀ d : DemoDev, d.Rest false r → V.ready d.pins = d.awready)
    (t : List (AxAll × AxIn)) (h : d.Rest hot r) (hd : d.Drives t)
    (hq : ∀ q ∈ t, (awStream c).xfer (q.1.1.1, q.2) = false ∧ (arStream c).xfer (q.1.2, q.2) = false) (idle held : List (AddrOut × AxIn))
    (e : t.map (fun q => (g q.1, q.2)) = idle ++ held) (hh : ∀ q ∈ held, V.ready q.2 = false) : held.length ≤ 1 := by
  match held, e, hh with
  | [], _, _ => simp
  | [_], _, _ => simp
  | x :: y :: l, e, hh =>
    exfalso
    rw [show idle ++ x :: y :: l = (idle ++ [x]) ++ y :: l by simp] at e
    obtain ⟨t1, t2, rfl, e1, e2⟩ := List.map_eq_append_iff.1 e
    obtain ⟨q, t2, rfl, e3, e4⟩ := List.map_eq_cons_iff.1 e2
    rw [drives_append] at hd
    have hne : t1 ≠ [] := by rintro rfl; simp at e1
    obtain ⟨k1, k2⟩ := h.run c t1 hd.1 (fun x hx => hq x (by simp [hx]))
    have k1' : (d.run t1).Rest false r := by
      cases t1 with
      | nil => exact absurd rfl hne
      | cons _ _ => simpa using k1
    have h1 := hV _ k1'
    rw [k2 hne, ← hd.2.1] at h1
    have h2 := hh y (by simp)
    rw [← e3] at h2
    simp only at h2
    rw [h1] at h2
    cases h2

theorem eq_nil_or_snoc {α : Type} (l : List α) : l = [] ∨ ∃ l' x, l = l' ++ [x] := by
  rcases List.eq_nil_or_concat l with h | ⟨l', x, h⟩
  · exact .inl h
  · exact .inr ⟨l', x, by rw [h, List.concat_eq_append]⟩

/-- the last element with a property is at one place only -/
theorem last_unique {α : Type} (P : α → Prop) {l1 l2 l3 l4 : List α} {x y : α} (e : l1 ++ x :: l2 = l3 ++ y :: l4) (hx : P x) (hy : P y)
    (h2 : ∀ z ∈ l2, ¬P z) (h4 : ∀ z ∈ l4, ¬P z) : l1 = l3 ∧ x = y ∧ l2 = l4 := by
  rcases List.append_eq_append_iff.1 e with ⟨a, e1, e2⟩ | ⟨a, e1, e2⟩
  · cases a with
    | nil => simp at e1 e2; exact ⟨e1.symm, e2.1, e2.2⟩
    | cons z a =>
      injection e2 with e3 e4
      exact absurd hy (h2 y (by rw [e4]; simp))
  · cases a with
    | nil => simp at e1 e2; exact ⟨e1, e2.1.symm, e2.2.symm⟩
    | cons z a =>
      injection e2 with e3 e4
      exact absurd hx (h4 x (by rw [e4]; simp))

/-- something that is on offer and is not taken stays on offer -/
theorem holds_back {I O P : Type} (V : Stream I O P) (t : List (O × I)) (q : O × I) : V.Holds (t ++ [q]) → (∀ x ∈ t, V.xfer x = false) → V.valid q.1 = false →
    ∀ x ∈ t, V.valid x.1 = false := by
  induction t with
  | nil => intro _ _ _ x hx; cases hx
  | cons y t ih =>
    intro h hx hq
    have ht : ∀ x ∈ t, V.valid x.1 = false := by
      cases t with
      | nil => intro x hx; cases hx
      | cons z t => exact ih h.2 (fun x hx' => hx x (List.mem_cons_of_mem _ hx')) hq
    intro x hm
    rcases List.mem_cons.1 hm with rfl | hm
    · cases hv : V.valid x.1 with
      | false => rfl
      | true =>
        have hr : V.ready x.2 = false := by have := hx x (by simp); simpa [Stream.xfer, hv] using this
        cases t with
        | nil => have := (h.1 hv hr).1; rw [hq] at this; cases this
        | cons z t => have := (h.1 hv hr).1; rw [ht z (by simp)] at this; cases this
    · exact ht x hm


theorem respIs_natToBits (n : Nat) (h : n < 4) : respIs (natToBits 2 n) n := by
  refine ⟨isResolvable_natToBits _ _, ?_, h⟩
  rw [bitsToNat_natToBits, Nat.mod_eq_of_lt (by simpa using h)]

/-- from the acceptance of the data to the response -/
theorem stored_run {α : Type} {d : DemoDev} (t : List (α × AxIn)) (f : α → AxAll) (h : d.Stored 0 a v r) (hd : d.Drives (t.map (fun q => (f q.1, q.2)))) {res : Option (Except PyErr Unit)}
    (hw : WriteResponse t res) :
    (res = none ∧ t.length ≤ 2) ∨
    (res = some (if a > 4 then .error (.axiProtocol 3) else .ok ()) ∧ t.length = 3 ∧ (d.run (t.map (fun q => (f q.1, q.2)))).Rest true (r.put a v)) := by
  match t, hd, hw with
  | [], _, hw =>
    rcases hw with ⟨h1, _⟩ | ⟨t', q, n, h1, _⟩
    · exact .inl ⟨h1, by simp⟩
    · simp at h1
  | [x], hd, hw =>
    rcases hw with ⟨h1, _⟩ | ⟨t', q, n, h1, _, h2, _⟩
    · exact .inl ⟨h1, by simp⟩
    · have : x = q := by simpa using congrArg List.getLast? h1
      subst this
      have hx : x.2 = d.pins := hd.1
      rw [hx, bFire_pins, h.bvalid] at h2
      cases h2
  | [x, y], hd, hw =>
    rcases hw with ⟨h1, _⟩ | ⟨t', q, n, h1, _, h2, _⟩
    · exact .inl ⟨h1, by simp⟩
    · have : y = q := by simpa using congrArg List.getLast? h1
      subst this
      have hx : y.2 = (d.step (f x.1)).pins := hd.2.1
      rw [hx, bFire_pins, h.next0.bvalid] at h2
      cases h2
  | x :: y :: z :: l, hd, hw =>
    have s2 := h.next0 (o := f x.1) |>.next1 (o := f y.1)
    have hz : z.2 = ((d.step (f x.1)).step (f y.1)).pins := hd.2.2.1
    have hf : bFire z.2 = true := by rw [hz, bFire_pins, s2.bvalid]; rfl
    rcases hw with ⟨_, h1⟩ | ⟨t', q, n, h1, h2, h3, h4, h5⟩
    · have := h1 z (by simp); rw [hf] at this; cases this
    · right
      have hl : l = [] := by
        cases l with
        | nil => rfl
        | cons w l =>
          exfalso
          have hzt : z ∈ t' := by
            have : (x :: y :: z :: w :: l).dropLast = t' := by rw [h1]; simp
            rw [← this]; simp
          have := h2 z hzt; rw [hf] at this; cases this
      subst hl
      have : z = q := by simpa using congrArg List.getLast? h1
      subst this
      rw [hz] at h4
      have h6 := respIs_unique h4 (by
        show respIs (natToBits 2 _) _
        exact respIs_natToBits _ (by rw [s2.bresp rfl]; split <;> decide))
      refine ⟨?_, rfl, s2.next2⟩
      rw [h5, h6, s2.bresp rfl]
      by_cases ha : a > 4 <;> simp [ha]

/-- a write -/
theorem demo_write (c : AxCfg) (p : AddrReq) (w : WReq) (lead n : Nat) (tc tb : List ((AddrOut × WOut) × AxIn)) (o : AddrOut) (ho : o.valid = .zero) (aw wb : Bool)
    (h : d.Rest hot r) (hd : d.Drives ((tc ++ tb).map (fun q => ((q.1, o), q.2)))) (hn : hot = true → 0 < n)
    (hA : (awStream c).Once p lead (awTrace (tc ++ tb)) aw) (hW : (wStream c).Burst [w] [n] (wTrace (tc ++ tb)) wb) {res : Option (Except PyErr Unit)}
    (h0 : (aw && wb) = false → res = none)
    (h1 : (aw && wb) = true → (∀ q ∈ tb, (awStream c).valid q.1.1 = false ∧ (wStream c).valid q.1.2 = false) ∧ WriteResponse tb res ∧
      ∃ q, tc.getLast? = some q ∧ ((awStream c).xfer (q.1.1, q.2) = true ∨ (wStream c).xfer (q.1.2, q.2) = true)) :
    (res = none ∧ (tc ++ tb).length < max (lead + 3) (n + 1) + 3) ∨
    (res = some (if bitsToNat p.addr > 4 then .error (.axiProtocol 3) else .ok ()) ∧ (tc ++ tb).length ≤ max (lead + 3) (n + 1) + 3 ∧
      (d.run ((tc ++ tb).map (fun q => ((q.1, o), q.2)))).Rest true (r.put (bitsToNat p.addr) (bitsToNat w.data))) := by
  let F : (AddrOut × WOut) × AxIn → AxAll × AxIn := fun q => ((q.1, o), q.2)
  change d.Drives ((tc ++ tb).map F) at hd
  have noar : ∀ q : (AddrOut × WOut) × AxIn, (arStream c).xfer ((F q).1.2, (F q).2) = false := fun q => by simp [F, Stream.xfer, arStream, ho]
  generalize ht : tc ++ tb = t at *
  -- as long as no address has been accepted
  have rest : ∀ (u v : List ((AddrOut × WOut) × AxIn)), t = u ++ v → (∀ q ∈ u, (awStream c).xfer (q.1.1, q.2) = false) →
      (d.run (u.map F)).Rest (hot && u.isEmpty) r ∧ d.Drives (u.map F) ∧ (d.run (u.map F)).Drives (v.map F) := by
    intro u v e hu
    rw [e, List.map_append, drives_append] at hd
    have := (h.run c (u.map F) hd.1 (by
      intro q hq
      obtain ⟨x, hx, rfl⟩ := List.mem_map.1 hq
      exact ⟨hu x hx, noar x⟩)).1
    exact ⟨by simpa using this, hd.1, hd.2⟩
  have held1 : ∀ (u v : List ((AddrOut × WOut) × AxIn)), t = u ++ v → (∀ q ∈ u, (awStream c).xfer (q.1.1, q.2) = false) → ∀ idle held, awTrace u = idle ++ held →
      (∀ q ∈ held, (awStream c).ready q.2 = false) → held.length ≤ 1 := by
    intro u v e hu idle held e1 hh
    refine h.held c (V := awStream c) (fun o => o.1.1) (fun d _ => Logic.ofBool_one _) (u.map F) (rest u v e hu).2.1 ?_ idle held ?_ hh
    · intro q hq
      obtain ⟨x, hx, rfl⟩ := List.mem_map.1 hq
      exact ⟨hu x hx, noar x⟩
    · rw [← e1]; simp [awTrace, F, List.map_map, Function.comp_def]
  obtain ⟨a1, a2, ea, ⟨idle, held, g1, g2, g3⟩, g4, g5⟩ := hA
  have gx : ∀ q ∈ idle ++ held, (awStream c).xfer q = false := by
    intro q hq
    rcases List.mem_append.1 hq with hq | hq
    · simp [Stream.xfer, g1 q hq]
    · simp [Stream.xfer, (g2 q hq).2.2]
  cases aw with
  | false =>
    left
    refine ⟨h0 rfl, ?_⟩
    rw [g4 rfl, List.append_nil] at ea
    simp only [Bool.false_eq_true, if_false] at g3
    have hlen : t.length = a1.length := by rw [← ea]; simp [awTrace]
    rcases g3 with ⟨e1, e2⟩ | ⟨e1, e2⟩
    · subst e1; omega
    · have hu : ∀ q ∈ t, (awStream c).xfer (q.1.1, q.2) = false := fun q hq => gx (q.1.1, q.2) (by rw [← e1, ← ea]; exact List.mem_map_of_mem hq)
      have := held1 t [] (by simp) hu idle held (by rw [ea, e1]) (fun q hq => (g2 q hq).2.2)
      rw [hlen, e1, List.length_append]
      omega
  | true =>
    simp only [if_true] at g3
    obtain ⟨e2, q0, e1, v1, v2, v3⟩ := g3
    rw [e1, List.append_assoc] at ea
    obtain ⟨ta, t2', rfl, f1, f2⟩ := List.map_eq_append_iff.1 ea
    obtain ⟨qa, t2, rfl, f3, f4⟩ := List.map_eq_cons_iff.1 f2
    subst f3
    change _ = a2 at f4
    have hua : ∀ q ∈ ta, (awStream c).xfer (q.1.1, q.2) = false := fun q hq => gx (q.1.1, q.2) (by rw [← f1]; exact List.mem_map_of_mem hq)
    have hheld := held1 ta (qa :: t2) rfl hua idle held f1 (fun q hq => (g2 q hq).2.2)
    have hta : ta.length ≤ lead + 1 := by
      have : ta.length = (idle ++ held).length := by rw [← f1]; simp
      rw [this, List.length_append]; omega
    have h2v : ∀ q ∈ t2, (awStream c).valid q.1.1 = false := fun q hq => g5 (q.1.1, q.2) (by rw [← f4]; exact List.mem_map_of_mem hq)
    -- the device takes the address
    have takes : ∀ h' : (d.run (ta.map F)).Rest (hot && ta.isEmpty) r, (F qa).2 = (d.run (ta.map F)).pins →
        ((d.run (ta.map F)).step (F qa).1).Recv (bitsToNat p.addr) r ∧ (d.run (ta.map F)).awready = true := by
      intro h' hp
      have hr : (d.run (ta.map F)).awready = true := by
        have : (awStream c).ready (F qa).2 = true := v3
        rw [hp] at this
        exact (Logic.ofBool_one _).symm.trans this
      have hv : (F qa).1.1.1.valid = .one := by simpa [awStream] using v1
      have := h'.aw hv hr
      have ep : (F qa).1.1.1.addr = p.addr := by rw [← v2]; rfl
      rw [ep] at this
      exact ⟨this, hr⟩
    -- no data are taken before the address
    have early : ∀ (u v : List ((AddrOut × WOut) × AxIn)) (x : (AddrOut × WOut) × AxIn), ta ++ qa :: t2 = u ++ x :: v → (∀ q ∈ u, (awStream c).xfer (q.1.1, q.2) = false) →
        (wStream c).xfer (x.1.2, x.2) = true → u = [] ∧ hot = true := by
      intro u v x e hu hx
      obtain ⟨k1, _, k2⟩ := rest u (x :: v) e hu
      have hp : x.2 = (d.run (u.map F)).pins := k2.1
      rw [hp, xfer_w, k1.wready] at hx
      simp only [Bool.and_eq_true, decide_eq_true_eq, List.isEmpty_iff] at hx
      exact ⟨hx.2.2, hx.2.1⟩
    obtain ⟨w1, w2, ew, hh, hi, hz, hcomp⟩ := hW
    -- data that wait although the device is ready
    have tail : ∀ (u v : List ((AddrOut × WOut) × AxIn)), t2 = u ++ v → (∀ q ∈ u, (wStream c).xfer (q.1.2, q.2) = false) →
        (d.run ((ta ++ qa :: u).map F)).Recv (bitsToNat p.addr) r ∧ (∀ q ∈ u, (wStream c).valid q.1.2 = false) := by
      intro u v e hu
      obtain ⟨k1, _, k2⟩ := rest ta (qa :: t2) rfl hua
      obtain ⟨k3, _⟩ := takes k1 k2.1
      have key : ∀ (u : List ((AddrOut × WOut) × AxIn)) (d' : DemoDev), d'.Recv (bitsToNat p.addr) r → d'.Drives (u.map F) → (∀ q ∈ u, (wStream c).xfer (q.1.2, q.2) = false) →
          (d'.run (u.map F)).Recv (bitsToNat p.addr) r ∧ (∀ q ∈ u, (wStream c).valid q.1.2 = false) := by
        intro u
        induction u with
        | nil => intro d' hd' _ _; exact ⟨hd', by simp⟩
        | cons x u ih =>
          intro d' hd' hD hx
          have hp : x.2 = d'.pins := hD.1
          have h1 := hx x (by simp)
          rw [hp, xfer_w, hd'.wready, Bool.and_true, decide_eq_false_iff_not] at h1
          obtain ⟨i1, i2⟩ := ih _ (hd'.quiet (o := (F x).1) h1) hD.2 (fun q hq => hx q (List.mem_cons_of_mem _ hq))
          refine ⟨i1, fun q hq => ?_⟩
          rcases List.mem_cons.1 hq with rfl | hq
          · simpa [wStream] using h1
          · exact i2 q hq
      have hD : ((d.run (ta.map F)).step (F qa).1).Drives (u.map F) := by
        have := k2.2
        change DemoDev.Drives _ (t2.map F) at this
        rw [e, List.map_append, drives_append] at this
        exact this.1
      obtain ⟨i1, i2⟩ := key u _ k3 hD hu
      refine ⟨?_, i2⟩
      rw [List.map_append, demoRun_append]
      exact i1
    cases wb with
    | false =>
      left
      refine ⟨h0 rfl, ?_⟩
      simp only [Bool.false_eq_true, if_false] at hcomp
      obtain ⟨hw2, k, hk, htk, _⟩ := hcomp
      subst hw2
      rw [List.append_nil] at ew
      have hk0 : k = 0 := by simpa using hk
      subst hk0
      have hnone : ∀ q ∈ ta ++ qa :: t2, (wStream c).xfer (q.1.2, q.2) = false := by
        intro q hq
        exact taken_nil_quiet (wStream c) w1 htk (q.1.2, q.2) (by rw [← ew]; exact List.mem_map_of_mem (f := fun r : (AddrOut × WOut) × AxIn => (r.1.2, r.2)) hq)
      obtain ⟨_, hval⟩ := tail t2 [] (by simp) (fun q hq => hnone q (by simp [hq]))
      rcases eq_nil_or_snoc t2 with rfl | ⟨l, z, rfl⟩
      · simp only [List.length_append, List.length_cons, List.length_nil]; omega
      · have hall : ∀ x ∈ wTrace (ta ++ qa :: l), (wStream c).valid x.1 = false := by
          have ew' : w1 = wTrace (ta ++ qa :: l) ++ [(z.1.2, z.2)] := by rw [← ew]; simp [wTrace]
          rw [ew'] at hh
          refine holds_back (wStream c) _ _ hh ?_ (hval z (by simp))
          intro x hx
          obtain ⟨y, hy, rfl⟩ := List.mem_map.1 hx
          exact hnone y (by simp only [List.mem_append, List.mem_cons] at hy ⊢; rcases hy with hy | hy | hy <;> simp [hy])
        have hlast := hval z (by simp)
        have : (w1.filter (fun q => !(wStream c).valid q.1)).length = w1.length := by
          rw [List.filter_eq_self.2]
          intro x hx
          rw [← ew, show wTrace (ta ++ qa :: (l ++ [z])) = wTrace (ta ++ qa :: l) ++ [(z.1.2, z.2)] by simp [wTrace]] at hx
          rcases List.mem_append.1 hx with hx | hx
          · simp [hall x hx]
          · simp only [List.mem_singleton] at hx; subst hx; simp [hlast]
        have hl : w1.length = (ta ++ qa :: (l ++ [z])).length := by rw [← ew]; simp [wTrace]
        rw [this, hl] at hi
        simp at hi ⊢
        omega
    | true =>
      simp only [if_true] at hcomp
      obtain ⟨htk, hidle, hlastx⟩ := hcomp
      obtain ⟨q1, hq1, hq2⟩ := hlastx (by simp)
      obtain ⟨w1', rfl⟩ := List.getLast?_eq_some_iff.1 hq1
      rw [taken_append] at htk
      have hw1q : (wStream c).taken w1' = [] := by
        have hl := congrArg List.length htk
        simp [Stream.taken, hq2] at hl
        simp [Stream.taken]
        intro x y hx
        simpa using hl x y hx
      have hpay : (wStream c).payload q1.1 = w := by
        rw [hw1q] at htk
        simpa [Stream.taken, hq2] using htk
      rw [List.append_assoc] at ew
      obtain ⟨tp, t3', et, j1, j2⟩ := List.map_eq_append_iff.1 ew
      obtain ⟨qw, t3, rfl, j3, j4⟩ := List.map_eq_cons_iff.1 j2
      subst j3
      change _ = w2 at j4
      have hnp : ∀ q ∈ tp, (wStream c).xfer (q.1.2, q.2) = false := by
        intro q hq
        exact taken_nil_quiet (wStream c) w1' hw1q (q.1.2, q.2) (by rw [← j1]; exact List.mem_map_of_mem (f := fun r : (AddrOut × WOut) × AxIn => (r.1.2, r.2)) hq)
      have h3v : ∀ q ∈ t3, (wStream c).valid q.1.2 = false := fun q hq => hz (q.1.2, q.2) (by rw [← j4]; exact List.mem_map_of_mem (f := fun r : (AddrOut × WOut) × AxIn => (r.1.2, r.2)) hq)
      have nohot : tp = [] → hot = true → False := by
        intro e1 e2
        subst e1
        have : w1' = [] := by rw [← j1]; rfl
        subst this
        have hx : (wStream c).xfer (qw.1.2, qw.2) = true := hq2
        simp [Stream.idleBefore, hx] at hidle
        have := hn e2
        omega
      -- the data are taken after the address
      obtain ⟨u, eu, eu2⟩ : ∃ u, tp = ta ++ qa :: u ∧ t2 = u ++ qw :: t3 := by
        rcases List.append_eq_append_iff.1 et with ⟨b, e1, e2⟩ | ⟨b, e1, e2⟩
        · cases b with
          | nil =>
            simp at e1
            have := early tp t3 qw (by rw [et]) (by rw [e1]; exact hua) hq2
            exact (nohot this.1 this.2).elim
          | cons x b =>
            injection e2 with e3 e4
            subst e3
            exact ⟨b, e1, e4⟩
        · have := early tp t3 qw (by rw [et]) (fun q hq => hua q (by rw [e1]; simp [hq])) hq2
          exact (nohot this.1 this.2).elim
      obtain ⟨krecv, hval⟩ := tail u (qw :: t3) eu2 (fun q hq => hnp q (by rw [eu]; simp [hq]))
      rw [← eu] at krecv
      obtain ⟨m1, m2, q2, m3, m4⟩ := h1 rfl
      -- the response is awaited from there
      have hsplit : tp ++ qw :: t3 = tc ++ tb := by rw [← et, ht]
      obtain ⟨tc', rfl⟩ := List.getLast?_eq_some_iff.1 m3
      rw [List.append_assoc, List.singleton_append] at hsplit
      obtain ⟨s1, s2, s3⟩ := last_unique (fun q : (AddrOut × WOut) × AxIn => (awStream c).xfer (q.1.1, q.2) = true ∨ (wStream c).xfer (q.1.2, q.2) = true) hsplit (.inr hq2) m4
        (by
          intro x hx
          have e1 := h2v x (by rw [eu2]; simp [hx])
          have e2 := h3v x hx
          simp [Stream.xfer, e1, e2])
        (by
          intro x hx
          obtain ⟨e1, e2⟩ := m1 x hx
          simp [Stream.xfer, e1, e2])
      subst s1 s2 s3
      have hD3 : d.Drives (tp.map F) ∧ (d.run (tp.map F)).Drives ((qw :: t3).map F) := by
        rw [et, List.map_append, drives_append] at hd
        exact hd
      have hwv : (F qw).1.1.2.valid = .one := by
        have : (wStream c).xfer (qw.1.2, qw.2) = true := hq2
        simp only [Stream.xfer, Bool.and_eq_true] at this
        simpa [wStream] using this.1
      have hst := krecv.w (o := (F qw).1) hwv
      have ew0 : (F qw).1.1.2.data = w.data := by rw [← hpay]; rfl
      rw [ew0] at hst
      have hlen : tp.length + 1 ≤ max (lead + 3) (n + 1) := by
        rcases eq_nil_or_snoc u with rfl | ⟨l, z, rfl⟩
        · rw [eu]; simp only [List.length_append, List.length_cons, List.length_nil]; omega
        · have etp : wTrace tp = wTrace (ta ++ qa :: l) ++ [(z.1.2, z.2)] := by rw [eu]; simp [wTrace]
          have hw1 : w1' = wTrace (ta ++ qa :: l) ++ [(z.1.2, z.2)] := by rw [← etp, ← j1]; rfl
          have hlast := hval z (by simp)
          have hall : ∀ x ∈ wTrace (ta ++ qa :: l), (wStream c).valid x.1 = false := by
            have hh' := holds_take (wStream c) _ _ hh
            rw [hw1] at hh'
            refine holds_back (wStream c) _ _ hh' ?_ hlast
            intro x hx
            obtain ⟨y, hy, rfl⟩ := List.mem_map.1 hx
            refine hnp y ?_
            rw [eu]
            simp only [List.mem_append, List.mem_cons] at hy ⊢
            rcases hy with hy | hy | hy <;> simp [hy]
          have : (w1'.filter (fun q => !(wStream c).valid q.1)) = w1' := by
            rw [List.filter_eq_self]
            intro x hx
            rw [hw1] at hx
            rcases List.mem_append.1 hx with hx | hx
            · simp [hall x hx]
            · simp only [List.mem_singleton] at hx; subst hx; simp [hlast]
          have hl : w1'.length = tp.length := by rw [← j1]; simp
          rw [List.filter_append, List.length_append, this, hl] at hi
          simp at hi
          omega
      have hend := stored_run t3 (fun x => (x, o)) hst hD3.2.2 m2
      rw [et]
      rcases hend with ⟨r1, r2⟩ | ⟨r1, r2, r3⟩
      · left
        refine ⟨r1, ?_⟩
        simp only [List.length_append, List.length_cons]
        omega
      · right
        refine ⟨r1, ?_, ?_⟩
        · simp only [List.length_append, List.length_cons]
          omega
        · rw [List.map_append, demoRun_append]
          exact r3

end CocotbBus
