import Verif.Proof.AxiMany

/-! # The calls on the address and data channels -/

namespace CocotbBus
open Spec Coro

/-- the address a call sends -/
def opReq (c : AxCfg) : AxOp → AddrReq
  | .write a v size burst _ _ _ _ => addrReq c a v.length (bytesPerBeat c size) burst
  | .liteWrite a _ _ _ _ _ => addrReq c a 1 c.dataBytes .incr
  | .read a len size burst _ => addrReq c a len.toNat (bytesPerBeat c size) burst
  | .liteRead a _ => addrReq c a 1 c.dataBytes .incr
  | .pause _ => addrReq c 0 1 1 .incr

/-- the data beats a call sends -/
def opData (c : AxCfg) : AxOp → List WReq
  | .write a v size burst be _ _ _ =>
    match axiWriteBeats c.dataBytes (bytesPerBeat c size) a burst v be with
    | .ok l => wReqs c l
    | .error _ => []
  | .liteWrite a v be _ _ _ =>
    match axiWriteBeats c.dataBytes c.dataBytes a .incr [v] [be] with
    | .ok l => wReqs c l
    | .error _ => []
  | _ => []

/-- a legal call of `write` -/
theorem write_call (c : AxCfg) (hc : Standard c) (op : AxOp) (hw : IsWrite op) (hok : AxOpOk c op) :
    ∃ (a : Nat) (v : List Nat) (size : Option Int) (burst : AxiBurst) (be : List (Option Nat)) (al dl : Nat) (sync : Bool) (beats : List (Nat × Nat)),
      (∀ N, axCost N op = (if sync then 1 else 0) + max (al + N) (dl + N * v.length) + N) ∧
      awJob c op = awJob c (.write a v size burst be al dl sync) ∧ wJob c op = wJob c (.write a v size burst be al dl sync) ∧
      opReq c op = addrReq c a v.length (bytesPerBeat c size) burst ∧ opData c op = wReqs c beats ∧
      axiWriteBeats c.dataBytes (bytesPerBeat c size) a burst v be = .ok beats ∧ beats.length = v.length ∧
      (∀ x ∈ beats, x.1 < 2 ^ (8 * c.dataBytes) ∧ x.2 < 2 ^ c.dataBytes) ∧ Legal c a v.length size burst (bytesPerBeat c size) ∧
      AddrFits c a v.length (bytesPerBeat c size) ∧ 0 < bytesPerBeat c size ∧ 0 < v.length ∧ (dl = 0 ∨ v.length = 1) ∧
      (opReq c op).decode c.dataBytes = (a, bytesPerBeat c size, burst, v.length) ∧
      ∀ mem, axAfter c op mem = axiStoreAll c.dataBytes (bytesPerBeat c size) burst a v.length 0 beats mem := by
  have main : ∀ (a : Nat) (v : List Nat) (size : Option Int) (burst : AxiBurst) (be : List (Option Nat)), a < 2 ^ c.addrW → be ≠ [] →
      Legal c a v.length size burst (bytesPerBeat c size) → WrapOk c (bytesPerBeat c size) burst a v.length →
      (c.full = false → bytesPerBeat c size = c.dataBytes ∧ burst = .incr ∧ v.length = 1) →
      ∃ beats, axiWriteBeats c.dataBytes (bytesPerBeat c size) a burst v be = .ok beats ∧ beats.length = v.length ∧
      (∀ x ∈ beats, x.1 < 2 ^ (8 * c.dataBytes) ∧ x.2 < 2 ^ c.dataBytes) ∧
      AddrFits c a v.length (bytesPerBeat c size) ∧ 0 < bytesPerBeat c size ∧ 0 < v.length ∧
      (addrReq c a v.length (bytesPerBeat c size) burst).decode c.dataBytes = (a, bytesPerBeat c size, burst, v.length) ∧
      ∀ mem, writeTo (bytesPerBeat c size) burst a v be mem = axiStoreAll c.dataBytes (bytesPerBeat c size) burst a v.length 0 beats mem := by
    intro a v size burst be ha hbe hl hwr hlite
    obtain ⟨h1, h2, h3, k, m, hk, hm, hW⟩ := Legal.facts hl hc ha
    obtain ⟨beats, b1, b2, b3⟩ := axiWriteBeats_ok (bytesPerBeat c size) m a h2 hm burst v be hbe
    rw [← hW] at b1 b3
    have h1' : AddrFits c a v.length (bytesPerBeat c size) := h1
    have h3' : 0 < v.length := h3
    exact ⟨beats, b1, b2, b3, h1', h2, h3', decode_addrReq c a v.length _ k burst h1' hk h3' hlite,
      fun mem => (beats_write c _ m a h2 hm hW burst v be hbe hwr beats b1 mem).symm⟩
  cases op with
  | write a v size burst be al dl sync =>
    obtain ⟨hf, ha, hbe, hd, hl, hwr⟩ := hok
    obtain ⟨beats, e1, e2, e3, e4, e5, e6, e7, e8⟩ := main a v size burst be ha hbe hl hwr (fun h => by rw [hf] at h; cases h)
    exact ⟨a, v, size, burst, be, al, dl, sync, beats, fun _ => rfl, rfl, rfl, rfl, by simp only [opData, e1], e1, e2, e3, hl, e4, e5, e6, hd, e7, e8⟩
  | liteWrite a v be al dl sync =>
    obtain ⟨hf, ha⟩ := hok
    obtain ⟨beats, e1, e2, e3, e4, e5, e6, e7, e8⟩ := main a [v] none .incr [be] ha (by simp) (legal_single c hc a)
      (fun h => by cases h) (fun _ => ⟨rfl, rfl, rfl⟩)
    exact ⟨a, [v], none, .incr, [be], al, dl, sync, beats, fun N => by simp [axCost], rfl, rfl, rfl, by
      have e1' : axiWriteBeats c.dataBytes c.dataBytes a .incr [v] [be] = .ok beats := e1
      simp only [opData, e1'], e1, e2, e3, legal_single c hc a, e4, e5, e6, .inr rfl, e7, e8⟩
  | read => cases hw
  | liteRead => cases hw
  | pause => cases hw

/-- a legal call of `read` -/
theorem read_call (c : AxCfg) (hc : Standard c) (op : AxOp) (hw : IsRead op) (hok : AxOpOk c op) :
    ∃ (a : Nat) (len : Int) (size : Option Int) (burst : AxiBurst) (sync : Bool) (k m : Nat),
      (∀ N, axCost N op = (if sync then 1 else 0) + N + N * axBeats op) ∧
      arJob c op = arJob c (.read a len size burst sync) ∧ opReq c op = addrReq c a len.toNat (bytesPerBeat c size) burst ∧
      Legal c a len size burst (bytesPerBeat c size) ∧ WrapOk c (bytesPerBeat c size) burst a len.toNat ∧
      AddrFits c a len.toNat (bytesPerBeat c size) ∧ 0 < bytesPerBeat c size ∧ 0 < len.toNat ∧ axBeats op = len.toNat ∧
      bytesPerBeat c size = 2 ^ k ∧ 0 < m ∧ c.dataBytes = bytesPerBeat c size * m ∧
      (opReq c op).decode c.dataBytes = (a, bytesPerBeat c size, burst, len.toNat) ∧
      (∀ view words, AxSeen c op view words ↔ ReadSeen (bytesPerBeat c size) burst a len.toNat view words) ∧
      (∀ code, axCodes code op = (List.range len.toNat).map code) ∧
      ((rJob c op = rJob c (.read a len size burst sync)) ∨ (rJob c op = rJob c (.liteRead a sync) ∧ len = 1 ∧ size = none ∧ burst = .incr)) := by
  cases op with
  | read a len size burst sync =>
    obtain ⟨hf, ha, hl, hwr⟩ := hok
    obtain ⟨h1, h2, h3, k, m, hk, hm, hW⟩ := Legal.facts hl hc ha
    exact ⟨a, len, size, burst, sync, k, m, fun _ => rfl, rfl, rfl, hl, hwr, h1, h2, h3, rfl, hk, hm, hW,
      decode_addrReq c a len.toNat _ k burst h1 hk h3 (fun h => by rw [hf] at h; cases h), fun _ _ => Iff.rfl, fun _ => rfl, .inl rfl⟩
  | liteRead a sync =>
    obtain ⟨hf, ha⟩ := hok
    have hl := legal_single c hc a
    obtain ⟨h1, h2, h3, k, m, hk, hm, hW⟩ := Legal.facts hl hc ha
    exact ⟨a, 1, none, .incr, sync, k, m, fun N => by simp [axCost, axBeats], rfl, rfl, hl, fun h => (by cases h), h1, h2, h3, rfl, hk, hm, hW,
      decode_addrReq c a 1 _ k .incr h1 hk (by decide) (fun _ => ⟨rfl, rfl, rfl⟩), fun _ _ => Iff.rfl, fun _ => rfl, .inr ⟨rfl, rfl, rfl, rfl⟩⟩
  | write => cases hw
  | liteWrite => cases hw
  | pause => cases hw

theorem checks_ok {c : AxCfg} (hc : Standard c) {a : Nat} {len : Int} {size : Option Int} {burst : AxiBurst} {sz : Nat} (hl : Legal c a len size burst sz) :
    axiChecks c a len size burst = .ok sz := by
  obtain ⟨⟨j, hj, hW⟩, -⟩ := hc
  exact (axiChecks_ok c a len size burst sz j hW (by omega)).2 hl

theorem awJob_good (c : AxCfg) (op : AxOp) : Good (awJob c op) := by
  cases op with
  | write => exact Good.bind (Good.ofExcept _) fun _ => sendWriteAddress_good _ _ _ _ _ _ _
  | liteWrite => exact Good.bind (Good.ofExcept _) fun _ => sendWriteAddress_good _ _ _ _ _ _ _
  | _ => exact Good.pure _

theorem wJob_good (c : AxCfg) (op : AxOp) : Good (wJob c op) := by
  cases op with
  | write => exact Good.bind (Good.ofExcept _) fun _ => sendWriteData_good _ _ _ _ _ _ _ _
  | liteWrite => exact Good.bind (Good.ofExcept _) fun _ => sendWriteData_good _ _ _ _ _ _ _ _
  | _ => exact Good.pure _

theorem arJob_good (c : AxCfg) (op : AxOp) : Good (arJob c op) := by
  cases op with
  | read => exact Good.bind (Good.ofExcept _) fun _ => sendReadAddress_good _ _ _ _ _ _
  | liteRead => exact Good.bind (Good.ofExcept _) fun _ => sendReadAddress_good _ _ _ _ _ _
  | _ => exact Good.pure _

theorem awJob_runs (c : AxCfg) (hc : Standard c) (op : AxOp) (hw : IsWrite op) (hok : AxOpOk c op) (s : Sim AxIn AddrOut) (hs : s.phase ≠ .ro)
    (h0 : s.out.valid = .zero) : ∃ ns : List Nat, (∀ N, ns.sum + N + N ≤ axCost N op) ∧ Runs (awStream c) [opReq c op] ns (awJob c op s) (fun _ s' => s'.phase ≠ .ro ∧ s'.out.valid = .zero) := by
  obtain ⟨a, v, size, burst, be, al, dl, sync, beats, hcost, e1, -, e3, -, -, -, -, hl, hf, hsz, -, -, -, -⟩ := write_call c hc op hw hok
  rw [e1, e3]
  have : awJob c (.write a v size burst be al dl sync) s = sendWriteAddress c a v.length burst (bytesPerBeat c size) al sync s :=
    by
    simp only [awJob, checks_ok hc hl]
    exact bind_ofExcept_ok _ _ s
  rw [this]
  exact ⟨_, fun N => by rw [hcost N, List.sum_singleton]; omega, (sendWriteAddress_offers c a v.length _ al burst sync hf hsz s (.inr hs) h0).runs.mono _ (fun _ s' h => ⟨by rw [h.1]; decide, h.2⟩)⟩

theorem wJob_runs (c : AxCfg) (hc : Standard c) (op : AxOp) (hw : IsWrite op) (hok : AxOpOk c op) (s : Sim AxIn WOut) (hs : s.phase ≠ .ro)
    (h0 : s.out.valid = .zero) : ∃ ns : List Nat, (∀ N, ns.sum + N * (opData c op).length + N ≤ axCost N op) ∧ Runs (wStream c) (opData c op) ns (wJob c op s) (fun _ s' => s'.phase ≠ .ro ∧ s'.out.valid = .zero) := by
  obtain ⟨a, v, size, burst, be, al, dl, sync, beats, hcost, -, e1, -, e3, e4, e5, e6, hl, hf, hsz, hv, hd, -, -⟩ := write_call c hc op hw hok
  rw [e1, e3]
  have : wJob c (.write a v size burst be al dl sync) s = sendWriteData c a v burst (bytesPerBeat c size) dl be sync s :=
    by
    simp only [wJob, checks_ok hc hl]
    exact bind_ofExcept_ok _ _ s
  rw [this, sendWriteData_eq c a v burst _ dl be sync beats e4]
  exact ⟨_, fun N => by rw [hcost N, sum_gap, show (wReqs c beats).length = v.length by rw [wReqs_length, e5]]; omega, sendBeats_first c dl sync beats (by rw [e5]; exact hd) (by rintro rfl; simp at e5; omega) e6 s (.inr hs) h0⟩

theorem arJob_runs (c : AxCfg) (hc : Standard c) (op : AxOp) (hw : IsRead op) (hok : AxOpOk c op) (s : Sim AxIn AddrOut) (hs : s.phase ≠ .ro)
    (h0 : s.out.valid = .zero) : ∃ ns : List Nat, (∀ N, ns.sum + N + N * axBeats op ≤ axCost N op) ∧ Runs (arStream c) [opReq c op] ns (arJob c op s) (fun _ s' => s'.phase ≠ .ro ∧ s'.out.valid = .zero) := by
  obtain ⟨a, len, size, burst, sync, k, m, hcost, e1, e3, hl, -, hf, hsz, -⟩ := read_call c hc op hw hok
  rw [e1, e3]
  have : arJob c (.read a len size burst sync) s = sendReadAddress c a len.toNat burst (bytesPerBeat c size) sync s :=
    by
    simp only [arJob, checks_ok hc hl]
    exact bind_ofExcept_ok _ _ s
  rw [this]
  exact ⟨_, fun N => by rw [hcost N, List.sum_singleton]; exact Nat.le_refl _, (sendReadAddress_offers c a len.toNat _ burst sync hf hsz s (.inr hs) h0).runs.mono _ (fun _ s' h => ⟨by rw [h.1]; decide, h.2⟩)⟩

theorem opData_ne (c : AxCfg) (hc : Standard c) (op : AxOp) (hw : IsWrite op) (hok : AxOpOk c op) :
    opData c op ≠ [] ∧ ((opReq c op).decode c.dataBytes).2.2.2 = (opData c op).length := by
  obtain ⟨a, v, size, burst, be, al, dl, sync, beats, -, -, -, -, e3, -, e5, -, -, -, -, hv, -, e7, -⟩ := write_call c hc op hw hok
  rw [e3, e7]
  exact ⟨wReqs_ne c beats (by rintro rfl; simp at e5; omega), by rw [wReqs_length, e5]⟩

/-- a call does to the memory what it should -/
theorem opMem (c : AxCfg) (hc : Standard c) (op : AxOp) (hw : IsWrite op) (hok : AxOpOk c op) (mem : Nat → Byte) :
    burstMem c (opReq c op) (opData c op) mem = axAfter c op mem := by
  obtain ⟨a, v, size, burst, be, al, dl, sync, beats, -, -, -, -, e3, -, e5, e6, -, -, -, hv, -, e7, e8⟩ := write_call c hc op hw hok
  rw [e8, burstMem, e7, e3, wReqs_decode c beats e6]

theorem aw_channel (c : AxCfg) (hc : Standard c) (calls : List (AxOp × Moment)) (hok : CallsOk c IsWrite calls) (s : Sim AxIn AddrOut) (hs : s.phase ≠ .ro)
    (h0 : s.out.valid = .zero) :
    Channel (awStream c) (fun op => [opReq c op]) calls s.rest.length (locked (awJob c) calls s).1 (records (locked (awJob c) calls s).2) := by
  refine channel (awStream c) (awJob c) (awJob_good c) _ (fun o => o.valid = .zero) (fun o h => by simp [awStream, h]) calls ?_ s hs h0
  intro x hx
  obtain ⟨h1, h2, h3⟩ := hok x hx
  exact ⟨by simp, h3, fun s' hs' hv' => (awJob_runs c hc x.1 h2 h1 s' hs' hv').imp fun _ h => h.2⟩

theorem w_channel (c : AxCfg) (hc : Standard c) (calls : List (AxOp × Moment)) (hok : CallsOk c IsWrite calls) (s : Sim AxIn WOut) (hs : s.phase ≠ .ro)
    (h0 : s.out.valid = .zero) :
    Channel (wStream c) (opData c) calls s.rest.length (locked (wJob c) calls s).1 (records (locked (wJob c) calls s).2) := by
  refine channel (wStream c) (wJob c) (wJob_good c) _ (fun o => o.valid = .zero) (fun o h => by simp [wStream, h]) calls ?_ s hs h0
  intro x hx
  obtain ⟨h1, h2, h3⟩ := hok x hx
  exact ⟨(opData_ne c hc x.1 h2 h1).1, h3, fun s' hs' hv' => (wJob_runs c hc x.1 h2 h1 s' hs' hv').imp fun _ h => h.2⟩

theorem ar_channel (c : AxCfg) (hc : Standard c) (calls : List (AxOp × Moment)) (hok : CallsOk c IsRead calls) (s : Sim AxIn AddrOut) (hs : s.phase ≠ .ro)
    (h0 : s.out.valid = .zero) :
    Channel (arStream c) (fun op => [opReq c op]) calls s.rest.length (locked (arJob c) calls s).1 (records (locked (arJob c) calls s).2) := by
  refine channel (arStream c) (arJob c) (arJob_good c) _ (fun o => o.valid = .zero) (fun o h => by simp [arStream, h]) calls ?_ s hs h0
  intro x hx
  obtain ⟨h1, h2, h3⟩ := hok x hx
  exact ⟨by simp, h3, fun s' hs' hv' => (arJob_runs c hc x.1 h2 h1 s' hs' hv').imp fun _ h => h.2⟩

end CocotbBus
