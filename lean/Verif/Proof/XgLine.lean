import Verif.Spec.XgLine
import Verif.Proof.Crc
import Verif.Proof.XgmiiRound

/-! # Damaged frames and the XGMII monitor -/

namespace CocotbBus
open Coro Spec

/-! ### The check sum of a frame -/

theorem lineBits_eq (m : Bytes) : lineBits m = Crc.bits m := rfl

theorem lineBits_append (a b : Bytes) : lineBits (a ++ b) = lineBits a ++ lineBits b := by simp [lineBits]

theorem lineBits_length (m : Bytes) : (lineBits m).length = 8 * m.length := by
  induction m with
  | nil => rfl
  | cons b m ih =>
    have : lineBits (b :: m) = (List.range 8).map b.getLsbD ++ lineBits m := rfl
    rw [this, List.length_append, ih]
    simp; omega

theorem lineBits_inj (a : Bytes) : ∀ b, lineBits a = lineBits b → a = b := by
  induction a with
  | nil =>
    intro b h
    have := congrArg List.length h
    rw [lineBits_length, lineBits_length] at this
    simp only [List.length_nil] at this
    exact (List.eq_nil_of_length_eq_zero (by omega)).symm
  | cons x a ih =>
    intro b h
    cases b with
    | nil =>
      have := congrArg List.length h
      rw [lineBits_length, lineBits_length] at this
      simp at this
    | cons y b =>
      have h' : (List.range 8).map x.getLsbD ++ lineBits a = (List.range 8).map y.getLsbD ++ lineBits b := h
      obtain ⟨h1, h2⟩ := List.append_inj h' (by simp)
      congr 1
      · apply BitVec.eq_of_getLsbD_eq
        intro i hi
        have := congrArg (fun l => l[i]?) h1
        simpa [List.getElem?_map, List.getElem?_range hi] using this
      · exact ih b h2

theorem le_bits (k : Nat) : ∀ (n i : Nat), i < 8 * k → (lineBits (natToBytesLE k n)).getD i false = n.testBit i := by
  induction k with
  | zero => intro n i h; omega
  | succ k ih =>
    intro n i h
    have : lineBits (natToBytesLE (k + 1) n) = (List.range 8).map (BitVec.ofNat 8 n).getLsbD ++ lineBits (natToBytesLE k (n / 256)) := rfl
    rw [this, List.getD_eq_getElem?_getD]
    by_cases hi : i < 8
    · rw [List.getElem?_append_left (by simp; omega), List.getElem?_map, List.getElem?_range hi]
      simp only [Option.map_some, Option.getD_some, BitVec.getLsbD_ofNat, hi, decide_true, Bool.true_and]
    · rw [List.getElem?_append_right (by simp; omega)]
      simp only [List.length_map, List.length_range]
      have := ih (n / 256) (i - 8) (by omega)
      rw [List.getD_eq_getElem?_getD] at this
      rw [this, show (256 : Nat) = 2 ^ 8 from rfl, Nat.testBit_div_two_pow]
      congr 1
      omega

theorem le_word (x : BitVec 32) : Crc.word (lineBits (natToBytesLE 4 x.toNat)) = x := by
  apply BitVec.eq_of_getLsbD_eq
  intro i hi
  rw [Crc.word_bit _ i hi, le_bits 4 _ i (by omega)]
  rfl

/-- data and check sum leave the same remainder whatever the data are -/
theorem remainder (p : Bytes) : (lineBits (p ++ natToBytesLE 4 (crc32 p % 2 ^ 32))).foldl Crc.feed 0xFFFFFFFF#32 = crcBit^[32] 0xFFFFFFFF#32 := by
  have hlt : crc32 p % 2 ^ 32 = crc32 p := Nat.mod_eq_of_lt (BitVec.isLt _)
  rw [hlt, lineBits_append, List.foldl_append, lineBits_eq p, ← Crc.bytes_feed p]
  rw [Crc.feed_word _ (by rw [lineBits_length, natToBytesLE_len]), lineBits_length, natToBytesLE_len]
  unfold crc32
  rw [le_word]
  congr 1
  apply BitVec.eq_of_getLsbD_eq
  intro i hi
  rw [BitVec.getLsbD_xor, BitVec.getLsbD_not]
  have : (0xFFFFFFFF#32).getLsbD i = true := by
    have : 0xFFFFFFFF#32 = BitVec.allOnes 32 := by decide
    rw [this, BitVec.getLsbD_allOnes]
    simpa using hi
  rw [this]
  simp [hi]

/-- the positions of the errors -/
def errs (a b : Bytes) : List Bool := List.zipWith xor (lineBits a) (lineBits b)

theorem errs_true (a b : Bytes) (h : a.length = b.length) (n : Nat) : (errs a b)[n]? = some true ↔ (lineBits a)[n]? ≠ (lineBits b)[n]? := by
  have hl : (lineBits a).length = (lineBits b).length := by rw [lineBits_length, lineBits_length, h]
  unfold errs
  rw [List.getElem?_zipWith]
  by_cases hn : n < (lineBits a).length
  · rw [List.getElem?_eq_getElem hn, List.getElem?_eq_getElem (by omega)]
    cases (lineBits a)[n] <;> cases (lineBits b)[n]'(by omega) <;> simp
  · rw [List.getElem?_eq_none (by omega), List.getElem?_eq_none (by omega)]
    simp

theorem errs_append (a b a' b' : Bytes) (h : a.length = a'.length) : errs (a ++ b) (a' ++ b') = errs a a' ++ errs b b' := by
  unfold errs
  rw [lineBits_append, lineBits_append, List.zipWith_append (by rw [lineBits_length, lineBits_length, h])]

/-- errors the check sum does not show -/
theorem unseen (p p' f' : Bytes) (hp : p.length = p'.length) (hf : f' = natToBytesLE 4 (crc32 p' % 2 ^ 32)) :
    (errs (p ++ natToBytesLE 4 (crc32 p % 2 ^ 32)) (p' ++ f')).foldl Crc.feed 0#32 = 0#32 := by
  have := Crc.feed_xor (lineBits (p ++ natToBytesLE 4 (crc32 p % 2 ^ 32))) (lineBits (p' ++ f')) 0xFFFFFFFF#32 0xFFFFFFFF#32 (by
    rw [lineBits_length, lineBits_length, hf]; simp [natToBytesLE_len, hp])
  rw [BitVec.xor_self] at this
  unfold errs
  rw [← this, remainder, hf, remainder, BitVec.xor_self]

theorem errs_self (m : Bytes) (r : BitVec 32) (h : r = 0#32) : (errs m m).foldl Crc.feed r = 0#32 := by
  subst h
  have := Crc.feed_xor (lineBits m) (lineBits m) 0#32 0#32 rfl
  rw [BitVec.xor_self] at this
  exact this.symm

/-- damage the check sum shows is noticed -/
theorem noticed_of (p d : Bytes) (fe : List XgEvent) (hl : d.length = (layer1 crc32 p).length) (hf : FrameEvents crc32 d xgTerminate fe)
    (hd : (errs (layer1 crc32 p) d).foldl Crc.feed 0#32 ≠ 0#32) : Noticed fe := by
  rw [layer1_length] at hl
  generalize ht : xgTerminate = ch at hf
  cases hf with
  | control d ch h => exact absurd ht.symm h
  | short d h1 h2 => omega
  | empty => simp at hl
  | preamble pre d hp h h' => exact .inl (by simp)
  | good payload fcs hf hp es he =>
    right
    have hlen : (padded p).length = payload.length := by
      rw [padded_length]
      simp only [List.length_append, hf] at hl
      have : preambleSfd.length = 7 := rfl
      omega
    have hne : fcs ≠ natToBytesLE 4 (crc32 payload % 2 ^ 32) := by
      intro hfc
      apply hd
      rw [layer1_eq, List.append_assoc, List.append_assoc, errs_append _ _ _ _ rfl, List.foldl_append, errs_self _ _ rfl]
      exact unseen _ _ _ hlen hfc
    rw [he, if_neg hne]
    simp

theorem burst_noticed (p d : Bytes) (k : Nat) (hk : k ≤ 32) (fe : List XgEvent) (hl : d.length = (layer1 crc32 p).length) (hf : FrameEvents crc32 d xgTerminate fe)
    (hb : Burst k (layer1 crc32 p) d) : Noticed fe := by
  obtain ⟨hne, i, hi⟩ := hb
  refine noticed_of p d fe hl hf (Crc.burst_pos _ i k hk ?_ (fun j hj => hi j ((errs_true _ _ hl.symm j).1 hj)))
  by_contra hno
  apply hne
  apply lineBits_inj
  apply List.ext_getElem?
  intro n
  by_contra hn
  exact hno (List.mem_of_getElem? ((errs_true _ _ hl.symm n).2 hn))

theorem two_noticed (p d : Bytes) (hs : d.length < 2 ^ 29) (fe : List XgEvent) (hl : d.length = (layer1 crc32 p).length) (hf : FrameEvents crc32 d xgTerminate fe)
    (hb : TwoBits (layer1 crc32 p) d) : Noticed fe := by
  obtain ⟨i, j, hij, h⟩ := hb
  refine noticed_of p d fe hl hf (Crc.two_pos _ i j hij ?_ (fun n => by rw [errs_true _ _ hl.symm n, h n]))
  unfold errs
  rw [List.length_zipWith, lineBits_length, lineBits_length]
  omega

/-! ### Words -/

abbrev LaneOk (a b : Lane) : Prop := a = b ∨ (a.2 = false ∧ b.2 = false)

/-- a frame ended by `ch`, with nothing but control characters after it in its last word -/
inductive EndsClean : List (List Lane) → Bytes → Byte → List (List Lane) → Prop
  | here (d : Bytes) (ch : Byte) (tail : List Lane) (rest : List (List Lane)) (h : ∀ x ∈ tail, x.2 = true) :
      EndsClean ((d.map dataLane ++ (ch, true) :: tail) :: rest) d ch rest
  | more (d d' : Bytes) (ch : Byte) (ws rest : List (List Lane)) : EndsClean ws d' ch rest →
      EndsClean (d.map dataLane :: ws) (d ++ d') ch rest

theorem EndsClean.ends {ws rest : List (List Lane)} {d : Bytes} {ch : Byte} (h : EndsClean ws d ch rest) : EndsWith ws d ch rest := by
  induction h with
  | here d ch tail rest h => exact .here d ch tail rest
  | more d d' ch ws rest h ih => exact .more d d' ch ws rest ih

theorem tail_clean {n : Nat} {pkt : Bytes} {ws : List (List Lane)} (h : TailWords n pkt ws) (rest : List (List Lane)) : EndsClean (ws ++ rest) pkt xgTerminate rest := by
  induction h with
  | last pkt h => exact .here pkt xgTerminate _ rest (fun x hx => by rw [List.eq_of_mem_replicate hx])
  | more pkt ws h hw ih =>
    have := EndsClean.more (pkt.take n) (pkt.drop n) xgTerminate (ws ++ rest) rest ih
    rw [List.take_append_drop] at this
    exact this

theorem line_data (d : Bytes) : ∀ w, List.Forall₂ LaneOk (d.map dataLane) w → ∃ d' : Bytes, w = d'.map dataLane ∧ d'.length = d.length := by
  induction d with
  | nil => intro w h; cases h; exact ⟨[], rfl, rfl⟩
  | cons b d ih =>
    intro w h
    cases h with
    | @cons _ y _ w h1 h2 =>
      obtain ⟨d', rfl, hl⟩ := ih w h2
      have : y = dataLane y.1 := by
        rcases h1 with h1 | h1
        · rw [← h1]; rfl
        · exact Prod.ext rfl h1.2
      exact ⟨y.1 :: d', by rw [List.map_cons, ← this], by simp [hl]⟩

theorem line_control (l : List Lane) (hl : ∀ x ∈ l, x.2 = true) : ∀ w, List.Forall₂ LaneOk l w → w = l := by
  induction l with
  | nil => intro w h; cases h; rfl
  | cons x l ih =>
    intro w h
    cases h with
    | @cons _ y _ w h1 h2 =>
      rw [ih (fun z hz => hl z (by simp [hz])) w h2]
      rcases h1 with h1 | h1
      · rw [h1]
      · exact absurd (hl x (by simp)) (by rw [h1.1]; simp)

theorem line_split (a : List Lane) : ∀ (b g : List Lane), List.Forall₂ LaneOk (a ++ b) g → ∃ u v, List.Forall₂ LaneOk a u ∧ List.Forall₂ LaneOk b v ∧ g = u ++ v := by
  induction a with
  | nil => intro b g h; exact ⟨[], g, .nil, h, rfl⟩
  | cons x a ih =>
    intro b g h
    cases h with
    | @cons _ y _ g h1 h2 =>
      obtain ⟨u, v, h3, h4, rfl⟩ := ih b g h2
      exact ⟨y :: u, v, .cons h1 h3, h4, rfl⟩

/-- a frame that is damaged is still a frame -/
theorem line_ends {ws rest : List (List Lane)} {d : Bytes} {ch : Byte} (h : EndsClean ws d ch rest) : ∀ gs, OnLine ws gs →
    ∃ d' rest', EndsClean gs d' ch rest' ∧ d'.length = d.length ∧ OnLine rest rest' := by
  induction h with
  | here d ch tail rest h =>
    intro gs hg
    cases hg with
    | @cons _ g _ gs h1 h2 =>
      obtain ⟨u, v, hu, hv, rfl⟩ := line_split _ _ _ h1
      obtain ⟨d', rfl, hl⟩ := line_data d u hu
      rw [line_control _ (fun x hx => by
        rcases List.mem_cons.1 hx with rfl | hx
        · rfl
        · exact h x hx) v hv]
      exact ⟨d', gs, .here d' ch tail gs h, hl, h2⟩
  | more d d' ch ws rest h ih =>
    intro gs hg
    cases hg with
    | @cons _ g _ gs h1 h2 =>
      obtain ⟨d1, rfl, hl⟩ := line_data d g h1
      obtain ⟨d2, rest', h3, hl2, h4⟩ := ih gs h2
      exact ⟨d1 ++ d2, rest', .more d1 d2 ch gs rest' h3, by simp [hl, hl2], h4⟩

/-! ### The frames in the words -/

theorem split_ctl (x : Lane) (hx : x.2 = true) (l : List Lane) : (x :: l).splitOnP Prod.snd = [] :: l.splitOnP Prod.snd := by
  rw [List.splitOnP_cons_eq_if_modifyHead, if_pos hx]

theorem split_data (d : Bytes) (x : Lane) (hx : x.2 = true) (l : List Lane) : (d.map dataLane ++ x :: l).splitOnP Prod.snd = d.map dataLane :: l.splitOnP Prod.snd := by
  induction d with
  | nil => exact split_ctl x hx l
  | cons b d ih =>
    rw [List.map_cons, List.cons_append, List.splitOnP_cons_eq_if_modifyHead, if_neg (by simp [dataLane]), ih]
    rfl

/-- the frames in some lanes -/
def runs (l : List Lane) : List Bytes := ((l.splitOnP Prod.snd).map (·.map Prod.fst)).filter (· ≠ [])

theorem runs_ctl (l : List Lane) (h : ∀ x ∈ l, x.2 = true) (r : List Lane) : runs (l ++ r) = runs r := by
  induction l with
  | nil => rfl
  | cons x l ih =>
    rw [List.cons_append, runs, split_ctl x (h x (by simp))]
    exact ih (fun y hy => h y (by simp [hy]))

theorem runs_data (d : Bytes) (hd : d ≠ []) (x : Lane) (hx : x.2 = true) (r : List Lane) : runs (d.map dataLane ++ x :: r) = d :: runs r := by
  have : (d.map dataLane).map Prod.fst = d := by rw [List.map_map]; exact List.map_id d
  rw [runs, split_data d x hx, List.map_cons, this, List.filter_cons_of_pos (by simpa using hd)]
  rfl

theorem clean_flatten {ws rest : List (List Lane)} {d : Bytes} {ch : Byte} (h : EndsClean ws d ch rest) :
    ∃ tail, (∀ x ∈ tail, x.2 = true) ∧ ws.flatten = d.map dataLane ++ (ch, true) :: (tail ++ rest.flatten) := by
  induction h with
  | here d ch tail rest h => exact ⟨tail, h, by simp⟩
  | more d d' ch ws rest h ih =>
    obtain ⟨tail, h1, h2⟩ := ih
    exact ⟨tail, h1, by rw [List.flatten_cons, h2]; simp⟩

/-! ### All packets -/

/-- what the driver shows for some packets -/
inductive SentWords (n : Nat) (crc : Bytes → Nat) : List (Bytes × Bool) → List (List Lane) → Prop
  | nil : SentWords n crc [] []
  | cons (p : Bytes) (sync : Bool) (items : List (Bytes × Bool)) (l : List Lane) (ws rest : List (List Lane))
      (he : EndsClean (l :: ws) (layer1 crc p) xgTerminate (List.replicate n (xgIdle, true) :: rest)) (hs : SentWords n crc items rest) :
      SentWords n crc ((p, sync) :: items) ((if sync then [List.replicate n (xgIdle, true)] else []) ++ ((xgStart, true) :: l) :: ws)

theorem sendAll_sent (c : XgCfg) (hc : XgOk c) (crc : Bytes → Nat) (items : List (Bytes × Bool)) :
    (∀ it ∈ items, c.nbytes ≤ max it.1.length 60 + 12) →
    ∃ ws, (∀ w ∈ ws, w.length = c.nbytes) ∧ SentWords c.nbytes crc items ws ∧
      ∀ s, XgReady c s → Emits c (xgSendAll c crc items s) ws (fun _ s' => XgReady c s') := by
  induction items with
  | nil =>
    intro _
    exact ⟨[], (by intro w hw; cases hw), .nil, fun s hs => Emits.silent hs⟩
  | cons it items ih =>
    intro hl
    obtain ⟨p, sync⟩ := it
    obtain ⟨ws2, h1, h2, h3⟩ := ih (fun it h => hl it (by simp [h]))
    have hlen : c.nbytes - 1 ≤ (layer1 crc p).length := by
      have := hl (p, sync) (by simp)
      simp only [] at this
      rw [layer1_length]; omega
    obtain ⟨ws, hw⟩ := tailWords_exists c.nbytes hc.pos _ ((layer1 crc p).drop (c.nbytes - 1)) (Nat.le_refl _)
    have he := EndsClean.more ((layer1 crc p).take (c.nbytes - 1)) _ xgTerminate _ _ (tail_clean hw (List.replicate c.nbytes (xgIdle, true) :: ws2))
    rw [List.take_append_drop] at he
    have hsent := SentWords.cons p sync items _ _ ws2 he h2
    refine ⟨_ ++ ws2, ?_, ?_, fun s hs => Emits.bind (xgSend_emits c hc crc p sync hlen hw s hs) (fun _ s' h => h3 s' h)⟩
    · intro w h
      rcases List.mem_append.1 h with h | h
      · exact frame_lens c.nbytes hc.pos crc p sync hw hlen w h
      · exact h1 w h
    · unfold frameWords
      simpa using hsent

theorem line_idle {n : Nat} {ws gs : List (List Lane)} (h : OnLine (List.replicate n (xgIdle, true) :: ws) gs) :
    ∃ gs', gs = List.replicate n (xgIdle, true) :: gs' ∧ OnLine ws gs' := by
  cases h with
  | @cons _ g _ gs h1 h2 =>
    exact ⟨gs, by rw [line_control _ (fun x hx => by rw [List.eq_of_mem_replicate hx]) g h1], h2⟩

/-- what arrives: frames, each of them with its own events -/
theorem line_scan (n : Nat) (crc : Bytes → Nat) {items : List (Bytes × Bool)} {ws : List (List Lane)} (h : SentWords n crc items ws) : ∀ gs, OnLine ws gs →
    ∃ fes : List (List XgEvent), Scan n crc gs fes.flatten ∧
      List.Forall₂ (fun (x : Bytes × List XgEvent) (it : Bytes × Bool) => x.1.length = (layer1 crc it.1).length ∧ FrameEvents crc x.1 xgTerminate x.2)
        ((frames gs).zip fes) items ∧ (frames gs).length = items.length ∧ fes.length = items.length := by
  induction h with
  | nil =>
    intro gs hg
    cases hg
    exact ⟨[], .nil, .nil, rfl, rfl⟩
  | cons p sync items l ws rest he hs ih =>
    intro gs hg
    have main : ∀ gs, OnLine (((xgStart, true) :: l) :: ws) gs → ∃ fes : List (List XgEvent), Scan n crc gs fes.flatten ∧
        List.Forall₂ (fun (x : Bytes × List XgEvent) (it : Bytes × Bool) => x.1.length = (layer1 crc it.1).length ∧ FrameEvents crc x.1 xgTerminate x.2)
          ((frames gs).zip fes) ((p, sync) :: items) ∧ (frames gs).length = ((p, sync) :: items).length ∧ fes.length = ((p, sync) :: items).length := by
      intro gs hg
      cases hg with
      | @cons _ g _ gs h1 h2 =>
        cases h1 with
        | @cons _ y _ g h3 h4 =>
          have hy : y = (xgStart, true) := by
            rcases h3 with h3 | h3
            · exact h3.symm
            · exact absurd h3.1 (by simp)
          subst hy
          obtain ⟨d', rest1, h5, h6, h7⟩ := line_ends he (g :: gs) (.cons h4 h2)
          obtain ⟨rest2, rfl, h8⟩ := line_idle h7
          obtain ⟨fes, i1, i2, i3, i4⟩ := ih rest2 h8
          obtain ⟨fe, hfe⟩ := frameEvents_total crc d' xgTerminate
          obtain ⟨tail, ht, hfl⟩ := clean_flatten h5
          have hne : d' ≠ [] := by
            intro h
            rw [h, layer1_length] at h6
            simp at h6
          have hfr : frames (((xgStart, true) :: g) :: gs) = d' :: frames rest2 := by
            show runs ((((xgStart, true) :: g) :: gs).flatten) = d' :: runs rest2.flatten
            have : (((xgStart, true) :: g) :: gs).flatten = [(xgStart, true)] ++ (g :: gs).flatten := by simp
            rw [this, runs_ctl _ (by simp), hfl, runs_data d' hne _ rfl, runs_ctl tail ht, List.flatten_cons, runs_ctl _ (fun x hx => by rw [List.eq_of_mem_replicate hx])]
          refine ⟨fe :: fes, ?_, ?_, ?_, ?_⟩
          · rw [List.flatten_cons]
            exact .frame _ _ _ _ _ _ _ _ (Opens.lane0 (n := n) g) h5.ends hfe (.skip _ _ _ (idle_not_opens n) i1)
          · rw [hfr]
            exact .cons ⟨h6, hfe⟩ i2
          · rw [hfr]; simp [i3]
          · simp [i4]
    cases sync with
    | false => exact main gs hg
    | true =>
      obtain ⟨gs', rfl, h8⟩ := line_idle (ws := ((xgStart, true) :: l) :: ws) hg
      obtain ⟨fes, i1, i2, i3, i4⟩ := main gs' h8
      have hfr : frames (List.replicate n (xgIdle, true) :: gs') = frames gs' := by
        show runs ((List.replicate n (xgIdle, true) :: gs').flatten) = runs gs'.flatten
        rw [List.flatten_cons, runs_ctl _ (fun x hx => by rw [List.eq_of_mem_replicate hx])]
      exact ⟨fes, .skip _ _ _ (idle_not_opens n) i1, by rw [hfr]; exact i2, by rw [hfr]; exact i3, i4⟩

theorem sent_frames (n : Nat) (crc : Bytes → Nat) {items : List (Bytes × Bool)} {ws : List (List Lane)} (h : SentWords n crc items ws) :
    frames ws = items.map fun it => layer1 crc it.1 := by
  induction h with
  | nil => rfl
  | cons p sync items l ws rest he hs ih =>
    obtain ⟨tail, ht, hfl⟩ := clean_flatten he
    have hne : layer1 crc p ≠ [] := by
      intro h
      have := layer1_length crc p
      rw [h] at this
      simp at this
    have h1 : ((if sync then [List.replicate n ((xgIdle, true) : Lane)] else []) ++ ((xgStart, true) :: l) :: ws).flatten =
        ((if sync then List.replicate n ((xgIdle, true) : Lane) else []) ++ [(xgStart, true)]) ++ (l :: ws).flatten := by
      cases sync <;> simp
    show runs _ = _
    rw [h1, runs_ctl _ (by
      intro x hx
      cases sync with
      | false => simp at hx; rw [hx]
      | true =>
        simp at hx
        rcases hx with hx | hx
        · rw [hx.2]
        · rw [hx]), hfl, runs_data _ hne _ rfl, runs_ctl tail ht, List.flatten_cons, runs_ctl _ (fun x hx => by rw [List.eq_of_mem_replicate hx])]
    rw [List.map_cons, ← ih]
    rfl

theorem onLine_lens {ws gs : List (List Lane)} (h : OnLine ws gs) (n : Nat) (hl : ∀ w ∈ ws, w.length = n) : ∀ g ∈ gs, g.length = n := by
  unfold OnLine at h
  induction h with
  | nil => intro g hg; cases hg
  | @cons w g ws gs h1 h2 ih =>
    intro x hx
    rcases List.mem_cons.1 hx with rfl | hx
    · rw [← h1.length_eq]; exact hl w (by simp)
    · exact ih (fun w hw => hl w (by simp [hw])) x hx

end CocotbBus
