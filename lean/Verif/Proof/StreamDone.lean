import Verif.Proof.StreamExists
import Verif.Proof.AxiGaps

/-! # The streaming test comes to its end if words are taken from the device again and again -/

namespace CocotbBus
open Spec Coro

/-- a device with room is ready at the next edge -/
theorem fifo_room (take : Nat → Logic) (n : Nat) (d : FifoDev) (t : List (StOut × StIn)) (hsz : d.size < 10) (hnr : ∀ q ∈ t, q.2.ready ≠ .one)
    (hd : FifoDev.Drives take n d t) : t.length ≤ 1 := by
  match t with
  | [] => simp
  | [_] => simp
  | q :: r :: t =>
    exfalso
    have h := hd.2.1
    have e : (d.step q.1 (take n)).ready = true := decide_eq_true hsz
    rw [e] at h
    exact hnr r (by simp) h

/-- the driver does not wait for long after a word has been taken -/
theorem fifo_wait (take : Nat → Logic) (k : Nat) : ∀ (n : Nat) (d : FifoDev) (hot : Bool) (t : List (StOut × StIn)), d.Ok hot → (∀ q ∈ t, q.2.ready ≠ .one) →
    FifoDev.Drives take n d t → take (n + k) = .one → t.length ≤ k + 2 := by
  induction k with
  | zero =>
    intro n d hot t h hnr hd hk
    by_cases hsz : d.size < 10
    · have := fifo_room take n d t hsz hnr hd; omega
    · cases t with
      | nil => simp
      | cons q t =>
        have hr : d.ready = false := by
          cases hr : d.ready with
          | false => rfl
          | true => exact absurd (by rw [hd.1, hr]; rfl) (hnr q (by simp))
        have h10 : d.size = 10 := by have := h.size; omega
        have hv : d.valid = true := by rw [h.valid, h10]; rfl
        have e : (d.step q.1 (take n)).size < 10 := by
          rw [Nat.add_zero] at hk
          simp [FifoDev.step, hr, hv, hk, h10]
        have := fifo_room take (n + 1) _ t e (fun q hq => hnr q (by simp [hq])) hd.2
        simp only [List.length_cons]; omega
  | succ k ih =>
    intro n d hot t h hnr hd hk
    cases t with
    | nil => simp
    | cons q t =>
      have hr : d.ready = false := by
        cases hr : d.ready with
        | false => rfl
        | true => exact absurd (by rw [hd.1, hr]; rfl) (hnr q (by simp))
      have hO := (fifo_step d hot h q.1 (take n) (fun _ h => by rw [hr] at h; cases h)).1
      have := ih (n + 1) _ _ t hO (fun q hq => hnr q (by simp [hq])) hd.2 (by rw [show n + 1 + k = n + (k + 1) by omega]; exact hk)
      simp only [List.length_cons]; omega

/-- the sending of one word takes only so many edges -/
theorem streamSend_done (W : Nat) (take : Nat → Logic) (hW : ∀ n, ∃ k < W, take (n + k) = .one) (x : StreamItem) (v : Valids) (s : Sim StIn StOut) (hs : s.phase ≠ .ro)
    (n : Nat) (d : FifoDev) (hot : Bool) (h : d.Ok hot) (hd : FifoDev.Drives take n d (streamSend x v s).1)
    (hlen : (if x.sync then 1 else 0) + (gapStep v).1 + (W + 2) + x.pause ≤ s.rest.length) :
    ∃ s', (streamSend x v s).2 = .ok (gapStep v).2 s' ∧ s'.phase ≠ .ro ∧ s.rest.length ≤ s'.rest.length + ((if x.sync then 1 else 0) + (gapStep v).1 + (W + 2) + x.pause) := by
  obtain ⟨idle, hidle, hrun⟩ := stSend_run streamCfg (.int x.byte.toNat) _ (stream_word x.byte) x.sync v s hs
  have hbase : streamSend x v s = (stSend streamCfg (.int x.byte.toNat) x.sync v >>= fun v => edges x.pause >>= fun _ => pure v) s := rfl
  have hg := (Good.stSend streamCfg (.int x.byte.toNat) x.sync v) s
  have hpre : ∀ a b, (streamSend x v s).1 = idle ++ a ++ b → (∀ q ∈ a, q.2.ready ≠ .one) → a.length ≤ W + 1 := by
    intro a b e ha
    rw [e, fifo_drives_append, fifo_drives_append] at hd
    obtain ⟨k, hk, hk'⟩ := hW (n + idle.length)
    have hap := apart_quiet idle (fun q hq h => by have := h.1; rw [hidle q hq] at this; cases this) hot
    obtain ⟨hO, _⟩ := fifo_run take idle n d hot h hap.1 hd.1.1
    have := fifo_wait take k _ _ _ a hO ha hd.1.2 hk'
    omega
  rcases hrun with ⟨s', h1, _, hl⟩ | ⟨hl, ws, hws, ⟨s', h1, _, hr⟩ | ⟨a, s', h1, ha, ho, hp⟩⟩
  · exfalso
    rw [h1] at hg
    have h2 := congrArg List.length hg.1
    have h3 : s'.rest = [] := hg.2 s' rfl
    simp only [End.sim, h3, List.length_append, List.length_map, List.length_cons, List.length_nil] at h2
    omega
  · exfalso
    have e : streamSend x v s = (idle ++ ws.map (fun i => (⟨.one, joinBytes [x.byte]⟩, i)), .blocked s') := by rw [hbase]; simp [bind_run, h1, BinVal.bits]
    have hb := hpre (ws.map (fun i => (⟨.one, joinBytes [x.byte]⟩, i))) [] (by rw [e, List.append_nil]) (by
      intro q hq
      obtain ⟨i, hi, rfl⟩ := List.mem_map.1 hq
      exact (hws i hi).2)
    rw [h1] at hg
    have h2 := congrArg List.length hg.1
    simp only [End.sim, hr, List.length_append, List.length_map, List.length_cons, List.length_nil] at h2
    rw [List.length_map] at hb
    omega
  · have e : streamSend x v s = (idle ++ ws.map (fun i => (⟨.one, joinBytes [x.byte]⟩, i)) ++ ((⟨.one, joinBytes [x.byte]⟩, a) :: (sampled x.pause s').map (fun i => (s'.out, i))),
        if x.pause ≤ s'.rest.length then .ok (gapStep v).2 (advance x.pause s') else .blocked (advance x.pause s')) := by
      rw [hbase, bind_run, h1]
      simp only [BinVal.bits]
      simp only [Res.andThen, bind_run, edges_run]
      by_cases hle : x.pause ≤ s'.rest.length
      · simp [hle, pure_run]
      · simp [hle]
    have hb := hpre (ws.map (fun i => (⟨.one, joinBytes [x.byte]⟩, i))) _ (by rw [e]) (by
      intro q hq
      obtain ⟨i, hi, rfl⟩ := List.mem_map.1 hq
      exact (hws i hi).2)
    rw [h1] at hg
    have h2 := congrArg List.length hg.1
    simp only [End.sim, List.length_append, List.length_map, List.length_cons, List.length_nil] at h2
    rw [List.length_map] at hb
    have hle : x.pause ≤ s'.rest.length := by omega
    have hE : (edges x.pause : M StIn StOut Unit) s' = _ := edges_run x.pause s'
    rw [if_pos hle] at hE
    have hg2 := congrArg List.length ((Good.edges (O := StOut) x.pause) s').1
    have hl2 := edges_length x.pause s' (advance x.pause s') (by rw [hE])
    obtain ⟨_, _, hph⟩ := edges_const x.pause s' (by rw [hp]; decide)
    rw [if_pos hle] at e
    refine ⟨advance x.pause s', by rw [e], ?_, ?_⟩
    · rcases hph with ⟨u, hu, hu2, _⟩ | ⟨u, hu⟩
      · rw [hE] at hu
        have : advance x.pause s' = u := by injection hu
        rw [this]; exact hu2
      · rw [hE] at hu; cases hu
    · rw [show ((edges x.pause : M StIn StOut Unit) s').2.sim = advance x.pause s' by rw [hE]; rfl] at hg2
      simp only [List.length_append, List.length_map, List.length_cons] at hg2
      omega

theorem streamTest_done (W : Nat) (items : List StreamItem) : ∀ v : Valids, ∃ N, ∀ (mon ref : Nat) (take : Nat → Logic) (first : Nat → Bool),
    (∀ n, ∃ k < W, take (n + k) = .one) → ∀ (k n : Nat) (d : FifoDev) (recent : List (SbOp Bytes)) (s : Sim StIn StOut) (hot : Bool), d.Ok hot → s.phase ≠ .ro →
    (∀ x ∈ items.head?, hot = false ∨ x.sync = true) → NotBackToBack items → FifoDev.Drives take n d (streamTest mon ref take first k n d recent items v s).trace →
    N ≤ s.rest.length → (streamTest mon ref take first k n d recent items v s).done = true := by
  induction items with
  | nil => exact fun v => ⟨0, fun _ _ _ _ _ _ _ _ _ _ _ _ _ _ _ _ _ => rfl⟩
  | cons x xs ih =>
    intro v
    obtain ⟨N, hN⟩ := ih (gapStep v).2
    refine ⟨N + ((if x.sync then 1 else 0) + (gapStep v).1 + (W + 2) + x.pause), ?_⟩
    intro mon ref take first hW k n d recent s hot h hs hhot hnb hd hlen
    have hd1 : FifoDev.Drives take n d (streamSend x v s).1 := by
      rw [streamTest] at hd
      cases hy : (streamSend x v s).2 with
      | ok v' s' => simp only [hy, fifo_drives_append] at hd; exact hd.1
      | err a s' => simp only [hy] at hd; exact hd
      | blocked s' => simp only [hy] at hd; exact hd
    obtain ⟨s', hok, hph, hrest⟩ := streamSend_done W take hW x v s hs n d hot h hd1 (by omega)
    obtain ⟨hap, hsh⟩ := streamSend_shape x v s hs hot (hhot x (by simp))
    have hhe : 0 < x.pause → hotEnd hot (streamSend x v s).1 = false := by
      rcases hsh with ⟨v', s'', _, _, _, hhe, _⟩ | ⟨⟨s'', hb⟩, _⟩
      · exact hhe
      · rw [hok] at hb; cases hb
    obtain ⟨hO, _⟩ := fifo_run take _ n d hot h hap hd1
    have hnext : ∀ y ∈ xs.head?, hotEnd hot (streamSend x v s).1 = false ∨ y.sync = true := by
      intro y hy
      cases xs with
      | nil => cases hy
      | cons z zs =>
        obtain rfl : z = y := by simpa using hy
        rcases hnb.1 with h | h
        · exact .inl (hhe h)
        · exact .inr h
    have hnb' : NotBackToBack xs := by
      cases xs with
      | nil => trivial
      | cons z zs => exact hnb.2
    simp only [streamTest, hok] at hd ⊢
    rw [fifo_drives_append] at hd
    exact hN mon ref take first hW _ _ _ _ s' _ hO hph hnext hnb' hd.2 (by omega)

/-- in every `W` edges one -/
theorem countEdges_windows (W : Nat) (f : Nat → Bool) (hW : ∀ n, ∃ k < W, f (n + k) = true) (m : Nat) : ∀ n p, m * W ≤ p → m ≤ countEdges n p f := by
  have one : ∀ k n p, k < p → f (n + k) = true → ∀ m, m ≤ countEdges (n + (k + 1)) (p - (k + 1)) f → m + 1 ≤ countEdges n p f := by
    intro k
    induction k with
    | zero =>
      intro n p hp hf m hm
      obtain ⟨p, rfl⟩ : ∃ q, p = q + 1 := ⟨p - 1, by omega⟩
      rw [countEdges_succ, if_pos (by simpa using hf)]
      simp only [Nat.zero_add, Nat.add_sub_cancel] at hm
      omega
    | succ k ih =>
      intro n p hp hf m hm
      obtain ⟨p, rfl⟩ : ∃ q, p = q + 1 := ⟨p - 1, by omega⟩
      rw [countEdges_succ]
      have := ih (n + 1) p (by omega) (by rw [show n + 1 + k = n + (k + 1) by omega]; exact hf) m
        (by rw [show n + 1 + (k + 1) = n + (k + 1 + 1) by omega, show p - (k + 1) = p + 1 - (k + 1 + 1) by omega]; exact hm)
      omega
  induction m with
  | zero => intros; omega
  | succ m ih =>
    intro n p hp
    rw [Nat.succ_mul] at hp
    obtain ⟨k, hk, hf⟩ := hW n
    exact one k n p (by omega) hf m (ih _ _ (by omega))

end CocotbBus
