import Verif.Model.Kwargs

/-! # C94: keyword arguments of `append` and `send` -/

namespace CocotbBus
variable {V : Type}

/-- The drivers of the package. -/
def packageSigs : List SendSig := [sigBusDriver, sigAvalonST, sigAvalonPkts, sigXgmii]

/-- The keyword arguments a user may give besides `sync`: parameters of the driver's send routine, each once. -/
def Accepts (sig : SendSig) (kw : List (String × V)) : Prop :=
  (kw.map Prod.fst).Nodup ∧ ∀ p ∈ kw, p.1 ∈ sig.named ∧ p.1 ≠ sig.transaction ∧ p.1 ∉ ["self", "transaction", "callback", "event", "sync"]

theorem pyCall_ok (taken named : List String) (varkw : Bool) (kw : List (String × V)) (h1 : (kw.map Prod.fst).Nodup) (h2 : ∀ p ∈ kw, p.1 ∉ taken)
    (h3 : varkw = true ∨ ∀ p ∈ kw, p.1 ∈ named) : pyCall taken named varkw kw = .ok kw := if_pos ⟨h1, h2, h3⟩

/-- C94, proved part: keyword arguments other than `sync` that the driver takes reach it unchanged, from `append` and from `send`, together
with `sync`. Missing: `sync` given to `append`, see `C94_violated`. -/
theorem C94_passed_partial (sig : SendSig) (hs : "sync" ∈ sig.named) (ht : sig.transaction ≠ "sync") (kw : List (String × V)) (h : Accepts sig kw)
    (sync : V) :
    appendCall kw = .ok kw ∧ queueCall sig sync kw = .ok (("sync", sync) :: kw) ∧ blockingCall sig sync kw = .ok (("sync", sync) :: kw) := by
  obtain ⟨hn, hk⟩ := h
  have hn' : ((("sync", sync) :: kw).map Prod.fst).Nodup := by
    simp only [List.map_cons, List.nodup_cons]
    refine ⟨?_, hn⟩
    intro hm
    obtain ⟨p, hp, e⟩ := List.mem_map.mp hm
    exact (hk p hp).2.2 (by simp [e])
  have h1 : ∀ p ∈ ("sync", sync) :: kw, p.1 ∉ ["self", "transaction", "callback", "event"] := by
    intro p hp
    rcases List.mem_cons.mp hp with rfl | hp
    · simp
    · have := (hk p hp).2.2
      simp only [List.mem_cons, List.not_mem_nil, or_false, not_or] at this ⊢
      exact ⟨this.1, this.2.1, this.2.2.1, this.2.2.2.1⟩
  have h2 : ∀ p ∈ ("sync", sync) :: kw, p.1 ∉ ["self", sig.transaction] := by
    intro p hp
    have h0 := h1 p hp
    simp only [List.mem_cons, List.not_mem_nil, or_false, not_or] at h0 ⊢
    refine ⟨h0.1, ?_⟩
    rcases List.mem_cons.mp hp with rfl | hp
    · exact ht.symm
    · exact (hk p hp).2.1
  have h3 : ∀ p ∈ ("sync", sync) :: kw, p.1 ∈ sig.named := by
    intro p hp
    rcases List.mem_cons.mp hp with rfl | hp
    · exact hs
    · exact (hk p hp).1
  have hsend : sendCall sig (("sync", sync) :: kw) = .ok (("sync", sync) :: kw) := by
    unfold sendCall
    rw [pyCall_ok _ _ _ _ hn' h1 (.inl rfl)]
    exact pyCall_ok _ _ _ _ hn' h2 (.inr h3)
  refine ⟨pyCall_ok _ _ _ _ hn (fun p hp => h1 p (by simp [hp])) (.inl rfl), hsend, ?_⟩
  unfold blockingCall
  rw [pyCall_ok _ _ _ _ hn' (fun p hp => ?_) (.inl rfl)]
  · exact hsend
  · have := h1 p hp
    simp only [List.mem_cons, List.not_mem_nil, or_false, not_or] at this ⊢
    exact ⟨this.1, this.2.1⟩

/-- C94 is false of the code for `sync`, a documented parameter of every driver's send routine: `append` takes it, and the sending
coroutine raises TypeError when the transaction's turn comes (after which nothing is sent any more: C14). -/
theorem C94_violated (sig : SendSig) (v sync : V) (kw : List (String × V)) (h : ("sync", v) ∈ kw) (_hk : appendCall kw = .ok kw) :
    queueCall sig sync kw = .error .typeError := by
  have : ¬ ((("sync", sync) :: kw).map Prod.fst).Nodup := by
    simp only [List.map_cons, List.nodup_cons, not_and]
    intro hn
    exact absurd (List.mem_map.mpr ⟨_, h, rfl⟩) hn
  unfold queueCall sendCall
  rw [show pyCall ["self", "transaction", "callback", "event"] ["sync"] true (("sync", sync) :: kw) = .error .typeError from if_neg (fun h => this h.1)]
  rfl

/-- C94: a keyword argument that the driver does not take is an error, for both. -/
theorem C94_unknown (sig : SendSig) (n : String) (v sync : V) (kw : List (String × V)) (h : (n, v) ∈ kw) (hn : n ∉ sig.named) :
    queueCall sig sync kw = .error .typeError ∧ blockingCall sig sync kw = .error .typeError := by
  have h2 : ∀ k : List (String × V), (n, v) ∈ k → sendCall sig k = .error .typeError := by
    intro k hk
    unfold sendCall
    by_cases hc : (k.map Prod.fst).Nodup ∧ (∀ p ∈ k, p.1 ∉ ["self", "transaction", "callback", "event"]) ∧ (true = true ∨ ∀ p ∈ k, p.1 ∈ ["sync"])
    · rw [show pyCall ["self", "transaction", "callback", "event"] ["sync"] true k = .ok k from if_pos hc]
      exact if_neg (fun h => h.2.2.elim (by simp) (fun h => hn (h _ hk)))
    · rw [show pyCall ["self", "transaction", "callback", "event"] ["sync"] true k = .error .typeError from if_neg hc]
      rfl
  refine ⟨h2 _ (by simp [h]), ?_⟩
  unfold blockingCall
  by_cases hc : ((("sync", sync) :: kw).map Prod.fst).Nodup ∧ (∀ p ∈ ("sync", sync) :: kw, p.1 ∉ ["self", "transaction"]) ∧ (true = true ∨ ∀ p ∈ ("sync", sync) :: kw, p.1 ∈ ["sync"])
  · rw [show pyCall ["self", "transaction"] ["sync"] true (("sync", sync) :: kw) = .ok (("sync", sync) :: kw) from if_pos hc]
    exact h2 _ (by simp [h])
  · rw [show pyCall ["self", "transaction"] ["sync"] true (("sync", sync) :: kw) = .error .typeError from if_neg hc]
    rfl

/-- C94: all drivers of the package meet the hypotheses of `C94_passed_partial`. -/
theorem C94_package : ∀ sig ∈ packageSigs, "sync" ∈ sig.named ∧ sig.transaction ≠ "sync" := by
  decide

example : Accepts sigAvalonPkts [("channel", 3)] := ⟨by decide, by decide⟩
example : queueCall sigAvalonPkts 1 [("channel", 3)] = .ok [("sync", 1), ("channel", 3)] := by decide
example : appendCall [("channel", 3), ("sync", 0)] = .ok [("channel", 3), ("sync", 0)] ∧
    queueCall sigAvalonPkts 1 [("channel", 3), ("sync", 0)] = .error .typeError ∧
    queueCall sigAvalonST 1 [("channel", 3)] = .error .typeError := by
  refine ⟨?_, ?_, ?_⟩ <;> decide

end CocotbBus
