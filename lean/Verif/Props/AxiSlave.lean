import Verif.Proof.AxiSlaveData

namespace CocotbBus
open Coro Spec

/-! ### C65 -/

/-- C65 is false of the code, for every write request: in the first cycle in which AWVALID is high the coroutine serving writes raises
(it drives WREADY in the ReadOnly phase), and the memory is as before. `pre` are the cycles before that. -/
theorem C65_violated (c : AsCfg) (s : Sim AsIn AsWOut) (hp : s.phase ≠ .ro) (pre post : List AsIn) (x : AsIn) (he : s.cur :: s.rest = pre ++ x :: post)
    (hpre : ∀ y ∈ pre, y.awvalid ≠ .one) (hx : x.awvalid = .one) :
    ∃ s', asWrite c s = (pre.map (fun y => ({ s.out with wready := .zero }, y)), .err .readOnlyWrite s') ∧ s'.out.mem = s.out.mem := by
  rcases asAw_run c s.rest s rfl hp with ⟨pre', x', post', e1, e2, e3, t, s', e4, e5, e6⟩ | ⟨e1, _⟩
  · have hpp : pre = pre' := by
      rw [he] at e1
      clear he e4 e5 e6
      induction pre generalizing pre' with
      | nil =>
        cases pre' with
        | nil => rfl
        | cons a l =>
          rw [List.nil_append, List.cons_append] at e1
          injection e1 with h1 _
          exact absurd hx (h1 ▸ e2 a (by simp))
      | cons a l ih =>
        cases pre' with
        | nil =>
          rw [List.nil_append, List.cons_append] at e1
          injection e1 with h1 _
          exact absurd e3 (h1 ▸ hpre a (by simp))
        | cons b l' =>
          rw [List.cons_append, List.cons_append] at e1
          injection e1 with h1 h2
          rw [h1, ih (fun y hy => hpre y (by simp [hy])) l' h2 (fun y hy => e2 y (by simp [hy]))]
    subst hpp
    refine ⟨s', ?_, by rw [e6]⟩
    rw [e5] at e4
    exact (asWrite_eq c s _).1 _ _ e4
  · exact absurd hx (e1 x (by rw [he]; simp))

/-- C65: nothing is ever stored and WREADY is never high, whatever happens on the bus. -/
theorem C65_never_stores (c : AsCfg) (s : Sim AsIn AsWOut) (hp : s.phase ≠ .ro) :
    (asWrite c s).2.sim.out.mem = s.out.mem ∧ ∀ r ∈ (asWrite c s).1, r.1.mem = s.out.mem ∧ r.1.wready = .zero := by
  rcases asAw_run c s.rest s rfl hp with ⟨pre, x, post, e1, e2, e3, t, s', e4, e5, e6⟩ | ⟨e1, t, s', e2, e3, e4⟩
  · rw [(asWrite_eq c s t).1 _ _ e4]
    refine ⟨by simp [End.sim, e6], fun r hr => ?_⟩
    rw [e5] at hr
    obtain ⟨y, _, rfl⟩ := List.mem_map.1 hr
    exact ⟨rfl, rfl⟩
  · rw [(asWrite_eq c s t).2 _ e2]
    refine ⟨by simp [End.sim, e4], fun r hr => ?_⟩
    rw [e3 r hr]
    exact ⟨rfl, rfl⟩

/-- C65, what holds: while there is no request the coroutine goes on waiting. Missing: every request. -/
theorem C65_idle_partial (c : AsCfg) (s : Sim AsIn AsWOut) (hp : s.phase ≠ .ro) (h : ∀ y ∈ s.cur :: s.rest, y.awvalid ≠ .one) :
    ∃ t s', asWrite c s = (t, .blocked s') := by
  rcases asAw_run c s.rest s rfl hp with ⟨pre, x, post, e1, e2, e3, _⟩ | ⟨e1, t, s', e2, e3, e4⟩
  · exact absurd e3 (h x (by rw [e1]; simp))
  · exact ⟨t, s', (asWrite_eq c s t).2 _ e2⟩

/-- C65, the part of the code behind the write to WREADY. If the data phase were reached (it is not, see `C65_violated`; that is what is missing), it
would store the data: from an edge on, with whatever gaps between the beats, the loop ends with the last beat, and the memory holds the bytes of the
beats from the address on and is otherwise as before. `sched` are the cycles up to the last beat, `post` those after it. The beats are as wide as the
bus and inside the memory. -/
theorem C65_data_partial (c : AsCfg) (s : Sim AsIn AsWOut) (hs : s.phase = .edge) (addr bytes : Nat) (sched : List (AsIn × Option Bytes)) (post : List AsIn)
    (he : s.prev :: s.cur :: s.rest = sched.map (·.1) ++ post) (hpost : post ≠ [])
    (hshow : ∀ p ∈ sched, ShowsBeat c.bigEndian p.1 p.2) (hlast : sched.getLast?.map (fun p => p.2.isSome) = some true)
    (hbytes : ∀ b ∈ sched.filterMap (·.2), b.length = bytes) (hmem : addr + (sched.filterMap (·.2)).length * bytes ≤ s.out.mem.length) :
    ∃ t s', loop (asWBody c addr (sched.filterMap (·.2)).length bytes) (sched.filterMap (·.2)).length s = (t, .ok () s') ∧
      s'.out.mem = stored s.out.mem addr (sched.filterMap (·.2)).flatten ∧ s'.cur :: s'.rest = post ∧ t.length + 1 = sched.length := by
  obtain ⟨t, s', h1, _, _, h2, h3, h4⟩ := asW_run c addr _ bytes sched s post hs he hpost hshow hlast (Nat.le_refl _) hbytes hmem
  exact ⟨t, s', h1, by rw [h2, Nat.sub_self, Nat.zero_mul, Nat.add_zero], h3, h4⟩

-- two beats of two bytes with a gap between them
example : (match loop (asWBody { dataW := 16 } 1 2 2) 2
      ⟨.edge, { wready := .one, mem := List.replicate 6 7#8 }, { wvalid := .one, wdata := natToBits 16 0x2211 }, {}, [{ wvalid := .one, wdata := natToBits 16 0x4433 }, {}, {}]⟩ with
    | (t, .ok _ s) => t.length == 2 && s.out.mem == [7#8, 0x11#8, 0x22#8, 0x33#8, 0x44#8, 7#8]
    | _ => false) = true := by decide +kernel

/-- a write request of one word of four bytes to address 4, in the second cycle -/
def exAsReq : AsIn :=
  { awvalid := .one, awaddr := natToBits 8 4, awlen := natToBits 8 0, awsize := natToBits 3 2, awburst := natToBits 2 1, awprot := natToBits 3 0
    wvalid := .one, wdata := natToBits 32 0x11223344
    arvalid := .one, araddr := natToBits 8 4, arlen := natToBits 8 1, arsize := natToBits 3 2, arburst := natToBits 2 1, arprot := natToBits 3 0, rready := .one }

def exAsSim : Sim AsIn AsWOut :=
  { phase := .edge, out := { wready := .one, mem := List.replicate 12 7#8 }, prev := {}, cur := {}, rest := [exAsReq, exAsReq, exAsReq] }

example : (asWrite { dataW := 32 } exAsSim).1.length = 1 ∧ (match (asWrite { dataW := 32 } exAsSim).2 with
    | .err e s => e == .readOnlyWrite && s.out.mem == List.replicate 12 7#8
    | _ => false) = true := by decide +kernel

/-! ### C66 -/

/-- C66 is false of the code for every read request: with cocotb 2.x the coroutine serving reads raises in the first cycle in which ARVALID
is high (it awaits ReadOnly in the ReadOnly phase). -/
theorem C66_violated (c : AsCfg) (hc : c.strict = true) (s : Sim AsIn AsROut) (hp : s.phase ≠ .ro) (pre post : List AsIn) (x : AsIn)
    (he : s.cur :: s.rest = pre ++ x :: post) (hpre : ∀ y ∈ pre, y.arvalid ≠ .one) (hx : x.arvalid = .one) :
    ∃ s', asRead c s = (pre.map (fun y => (s.out, y)), .err .readOnlyAwait s') := by
  obtain ⟨s', e1, e2, e3, e4, e5⟩ := asAr_run c pre s x post hp he hpre hx
  refine ⟨s', asRead_of_err c s s' _ _ ?_⟩
  unfold asReadOne
  rw [bind_run, e1, andThen_ok, bind_run]
  have : (readOnly c.strict : M AsIn AsROut Unit) s' = ([], .err .readOnlyAwait s') := by
    unfold readOnly; rw [if_pos ⟨hc, e2⟩]
  rw [this]
  simp

/-- C66 with cocotb 1.x: if RREADY is high in the cycle after the request, where the first beat should be, the coroutine raises there (it
drives RDATA in the ReadOnly phase). -/
theorem C66_violated_relaxed (c : AsCfg) (hc : c.strict = false) (s : Sim AsIn AsROut) (hp : s.phase ≠ .ro) (pre post : List AsIn) (x y : AsIn)
    (he : s.cur :: s.rest = pre ++ x :: y :: post) (hpre : ∀ y ∈ pre, y.arvalid ≠ .one) (hx : x.arvalid = .one) (hy : y.rready = .one)
    (f : Nat × Nat × Nat) (hf : asFields x.araddr x.arlen x.arsize x.arburst x.arprot = .ok f) :
    ∃ s', asRead c s = (pre.map (fun y => (s.out, y)) ++ [(s.out, x)], .err .readOnlyWrite s') := by
  obtain ⟨s', e1, e2, e3, e4, e5⟩ := asAr_run c pre s x (y :: post) hp he hpre hx
  have hb : ∃ n, f.2.2 = 2 ^ n := by
    unfold asFields at hf
    revert hf
    cases toUnsigned x.araddr <;> cases toUnsigned x.arlen <;> cases toUnsigned x.arsize <;> cases toUnsigned x.arburst <;> cases toUnsigned x.arprot <;>
      intro hf <;> try cases hf
    rename_i a l z b p
    change (match asBytesInBeat z with
      | none => (.error .typeError : Except PyErr (Nat × Nat × Nat))
      | some b => .ok (a, l + 1, b)) = .ok f at hf
    unfold asBytesInBeat at hf
    split at hf
    · cases hf
    · rename_i h
      cases hf
      split at h
      · cases h; exact ⟨_, rfl⟩
      · cases h
  obtain ⟨n, hn⟩ := hb
  have hpos : 0 < f.2.2 := by rw [hn]; exact Nat.two_pow_pos n
  refine ⟨⟨.ro, { s.out with rvalid := .one }, x, y, post⟩, asRead_of_err c s _ _ _ ?_⟩
  unfold asReadOne
  rw [bind_run, e1, andThen_ok]
  have h1 : (readOnly c.strict : M AsIn AsROut Unit) s' = ([], .ok () s') := by
    unfold readOnly; rw [if_neg (by rw [hc]; simp)]
    cases s'; cases e2; rfl
  rw [bind_silent _ _ _ _ _ h1, bind_inp_ro _ _ e2, e4, hf, bind_ofExcept_ok, bind_awaitEdge_cons _ _ y post e5]
  have h2 : loop (asRBody c f.1 f.2.1 f.2.2) f.2.1 ⟨.edge, s'.out, s'.cur, y, post⟩ =
      ([], .err .readOnlyWrite ⟨.ro, { s.out with rvalid := .one }, x, y, post⟩) := by
    rw [loop, iter, bind_run]
    have hbody : asRBody c f.1 f.2.1 f.2.2 f.2.1 ⟨.edge, s'.out, s'.cur, y, post⟩ = ([], .err .readOnlyWrite ⟨.ro, { s.out with rvalid := .one }, x, y, post⟩) := by
      unfold asRBody
      rw [bind_write _ _ _ (by simp), bind_readOnly _ _ _ (by simp), bind_inp_ro _ _ rfl]
      simp only []
      rw [if_pos hy, bind_run]
      obtain ⟨e, h3, h4⟩ := asRData_ro c f.1 f.2.1 f.2.2 f.2.1 ⟨.ro, { s'.out with rvalid := .one }, s'.cur, y, post⟩ rfl
      rw [h3]
      rcases h4 with rfl | h4
      · rw [e3, e4]; rfl
      · obtain ⟨v, hv⟩ := asBytes_ok s'.out.mem (f.1 + (f.2.1 - f.2.1) * f.2.2) f.2.2 hpos c.bigEndian
        rw [show f.1 + (f.2.1 - f.2.1) * f.2.2 + f.2.2 = f.1 + ((f.2.1 - f.2.1) + 1) * f.2.2 by rw [Nat.add_mul, Nat.one_mul, Nat.add_assoc]] at hv
        rw [hv] at h4; cases h4
    rw [hbody]; rfl
  rw [h2]
  simp [e3, e4]

/-- C66 with cocotb 1.x: a request whose beats all meet a low RREADY is lost. The beats go by without data, the coroutine then waits for the next request,
and RVALID stays high. `pre` are the cycles before the request, `beats` the cycles of its beats. -/
theorem C66_lost_relaxed (c : AsCfg) (hc : c.strict = false) (s : Sim AsIn AsROut) (hp : s.phase ≠ .ro) (pre beats post : List AsIn) (x y : AsIn)
    (he : s.cur :: s.rest = pre ++ x :: (beats ++ y :: post)) (hpre : ∀ z ∈ pre, z.arvalid ≠ .one) (hx : x.arvalid = .one)
    (f : Nat × Nat × Nat) (hf : asFields x.araddr x.arlen x.arsize x.arburst x.arprot = .ok f) (hlen : beats.length = f.2.1)
    (hbeats : ∀ z ∈ beats, z.rready ≠ .one) (hl : s.out.rlast = .zero) :
    ∃ s', asReadOne c s = (pre.map (fun z => (s.out, z)) ++ (s.out, x) :: beats.map (fun z => ({ s.out with rvalid := .one }, z)), .ok () s') ∧
      s'.phase = .edge ∧ s'.out = { s.out with rvalid := .one } ∧ s'.cur = y ∧ s'.rest = post := by
  obtain ⟨s', e1, e2, e3, e4, e5⟩ := asAr_run c pre s x (beats ++ y :: post) hp he hpre hx
  have hpos : beats ≠ [] := by
    rintro rfl
    unfold asFields at hf
    revert hf
    cases toUnsigned x.araddr <;> cases toUnsigned x.arlen <;> cases toUnsigned x.arsize <;> cases toUnsigned x.arburst <;> cases toUnsigned x.arprot <;>
      intro hf <;> try cases hf
    rename_i a l z b p
    change (match asBytesInBeat z with
      | none => (.error .typeError : Except PyErr (Nat × Nat × Nat))
      | some b => .ok (a, l + 1, b)) = .ok f at hf
    split at hf
    · cases hf
    · cases hf; simp at hlen
  obtain ⟨b, bs, rfl⟩ := List.exists_cons_of_ne_nil hpos
  unfold asReadOne
  rw [bind_run, e1, andThen_ok]
  have h1 : (readOnly c.strict : M AsIn AsROut Unit) s' = ([], .ok () s') := by
    unfold readOnly; rw [if_neg (by rw [hc]; simp)]
    cases s'; cases e2; rfl
  rw [bind_silent _ _ _ _ _ h1, bind_inp_ro _ _ e2, e4, hf, bind_ofExcept_ok, bind_awaitEdge_cons _ _ b (bs ++ y :: post) e5, ← hlen]
  obtain ⟨s2, h2, h3, h4, h5, h6⟩ := asR_skip c f.1 (b :: bs).length f.2.2 (b :: bs) ⟨.edge, s'.out, s'.cur, b, bs ++ y :: post⟩ y post (by simp) hpos rfl hbeats
    (by rw [e3]; exact hl)
  refine ⟨s2, ?_, h3, by rw [h4, e3], h5, h6⟩
  simp only [] at h2 ⊢
  rw [h2, e3, e4]

/-- C66 with cocotb 1.x: a request for beats of 128 bytes (ARSIZE = 7, the largest size AXI has) raises TypeError in the cycle in which ARVALID is high. -/
theorem C66_size_relaxed (c : AsCfg) (hc : c.strict = false) (s : Sim AsIn AsROut) (hp : s.phase ≠ .ro) (pre post : List AsIn) (x : AsIn)
    (he : s.cur :: s.rest = pre ++ x :: post) (hpre : ∀ y ∈ pre, y.arvalid ≠ .one) (hx : x.arvalid = .one)
    (hd : ∀ l ∈ [x.araddr, x.arlen, x.arburst, x.arprot], ∃ n, toUnsigned l = .ok n) (hsize : toUnsigned x.arsize = .ok 7) :
    ∃ s', asRead c s = (pre.map (fun y => (s.out, y)), .err .typeError s') := by
  obtain ⟨s', e1, e2, e3, e4, e5⟩ := asAr_run c pre s x post hp he hpre hx
  refine ⟨s', asRead_of_err c s s' _ _ ?_⟩
  unfold asReadOne
  rw [bind_run, e1, andThen_ok]
  have h1 : (readOnly c.strict : M AsIn AsROut Unit) s' = ([], .ok () s') := by
    unfold readOnly; rw [if_neg (by rw [hc]; simp)]
    cases s'; cases e2; rfl
  have hf : asFields x.araddr x.arlen x.arsize x.arburst x.arprot = .error .typeError := by
    obtain ⟨a, ha⟩ := hd x.araddr (by simp)
    obtain ⟨l, hl⟩ := hd x.arlen (by simp)
    obtain ⟨b, hb⟩ := hd x.arburst (by simp)
    obtain ⟨p, hp⟩ := hd x.arprot (by simp)
    unfold asFields
    rw [ha, hl, hb, hp, hsize]
    rfl
  rw [bind_silent _ _ _ _ _ h1, bind_inp_ro _ _ e2, e4, hf, bind_ofExcept_error]
  simp

example : toUnsigned (natToBits 3 7) = .ok 7 ∧ (match (asRead { dataW := 1024, strict := false } (⟨.edge, ⟨.zero, [], .zero, []⟩, {}, {},
      [{ exAsReq with arsize := natToBits 3 7 }, {}]⟩)) with
    | (t, .err e _) => t.length == 1 && e == .typeError
    | _ => false) = true := by
  refine ⟨?_, ?_⟩ <;> decide +kernel

/-- C66, the part of the code behind RREADY: outside the ReadOnly phase (where it never runs, see `C66_violated`; that is what is missing) it would put the
bytes of the beat on RDATA, for a beat inside the memory, and RLAST high with the last beat. -/
theorem C66_beat_partial (c : AsCfg) (addr length bytes count : Nat) (s : Sim AsIn AsROut) (hs : s.phase ≠ .ro)
    (hm : addr + (length - count + 1) * bytes ≤ s.out.mem.length) :
    asRData c addr length bytes count s = ([], .ok () { s with out := { s.out with
      rdata := beatBits c.bigEndian ((s.out.mem.drop (addr + (length - count) * bytes)).take bytes)
      rlast := if count = 1 then .one else s.out.rlast } }) := asRBeat c addr length bytes count s hs hm

-- the second beat of two bytes from address 1
example : asRData { dataW := 16 } 1 2 2 1 ⟨.edge, ⟨.one, [], .zero, [9#8, 1#8, 2#8, 3#8, 4#8, 5#8]⟩, {}, {}, []⟩ =
    ([], .ok () ⟨.edge, ⟨.one, natToBits 16 0x0403, .one, [9#8, 1#8, 2#8, 3#8, 4#8, 5#8]⟩, {}, {}, []⟩) := by decide +kernel

/-- C66: no data is ever put on RDATA and RLAST is never high, whatever happens on the bus and with either version. -/
theorem C66_never_data (c : AsCfg) (s : Sim AsIn AsROut) (h : s.out.rlast = .zero) :
    ∀ r ∈ (asRead c s).1, r.1.rdata = s.out.rdata ∧ r.1.rlast = .zero :=
  fun r hr => ⟨((keeps_asRead c s.out.rdata s.out.mem s ⟨rfl, h, rfl⟩).1 r hr).1, ((keeps_asRead c s.out.rdata s.out.mem s ⟨rfl, h, rfl⟩).1 r hr).2.1⟩

/-- C66, what holds: while there is no request the coroutine goes on waiting and changes nothing. Missing: every request. -/
theorem C66_idle_partial (c : AsCfg) (s : Sim AsIn AsROut) (hp : s.phase ≠ .ro) (h : ∀ y ∈ s.cur :: s.rest, y.arvalid ≠ .one) :
    ∃ t s', asRead c s = (t, .blocked s') ∧ (∀ r ∈ t, r.1 = s.out) ∧ s'.out = s.out := by
  obtain ⟨t, s', e1, e2, e3⟩ := asAr_idle c s.rest s rfl hp h
  refine ⟨t, s', asRead_of_blocked c s s' t ?_, e2, e3⟩
  unfold asReadOne
  rw [bind_run, e1]; rfl

/-- C66 from the constructor on: RLAST is low and RDATA is whatever it was, in every cycle. -/
theorem C66_constructed (c : AsCfg) (o : AsROut) (memory : Bytes) (p : Phase) (prev cur : AsIn) (rest : List AsIn) :
    ∀ r ∈ (asRead c ⟨p, asInitR o memory, prev, cur, rest⟩).1, r.1.rdata = o.rdata ∧ r.1.rlast = .zero :=
  C66_never_data c ⟨p, asInitR o memory, prev, cur, rest⟩ rfl

def exAsRSim (l : List AsIn) : Sim AsIn AsROut :=
  { phase := .edge, out := asInitR ⟨.x, List.replicate 32 .x, .x, []⟩ [1#8, 2#8, 3#8, 4#8, 5#8, 6#8, 7#8, 8#8, 9#8, 10#8, 11#8, 12#8], prev := {}, cur := {}, rest := l }

-- cocotb 2.x, cocotb 1.x
example : (match (asRead { dataW := 32 } (exAsRSim [exAsReq, exAsReq, exAsReq])) with
    | (t, .err e _) => t.length == 1 && e == .readOnlyAwait
    | _ => false) = true ∧ (match (asRead { dataW := 32, strict := false } (exAsRSim [exAsReq, exAsReq, exAsReq])) with
    | (t, .err e _) => t.length == 2 && e == .readOnlyWrite
    | _ => false) = true := by decide +kernel

-- cocotb 1.x, RREADY low: the two beats go by with RVALID high and no data
example : (match (asRead { dataW := 32, strict := false } (exAsRSim [{ exAsReq with rready := .zero }, {}, {}, {}, {}])) with
    | (t, .blocked s) => t.map (·.1.rvalid) == [.zero, .zero, .one, .one, .one] && s.out.rdata == List.replicate 32 .x
    | _ => false) = true := by decide +kernel

end CocotbBus
