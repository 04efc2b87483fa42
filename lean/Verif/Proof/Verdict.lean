import Verif.Props.Scoreboard
import Verif.Proof.Session

/-! # The verdict of a scoreboard with one interface and reorder depth 0 -/

namespace CocotbBus
open Spec
variable {T : Type}

/-- what arrives is what is expected, `fail_immediately` or not -/
theorem verdict_iff (ops : TxnOps T) (strict imm : Bool) (hops : ∀ a b, Accepts ops strict a b ↔ a = b) (E R : List T) :
    (((World.new imm (fun _ => E)).addInterface ops 0 (busMonitor none) (.list 0) .none 0 strict).1.receiveAll 0 R 0).1.sb.result = .ok () ↔
      E = R := by
  cases imm with
  | false =>
    have h2 := (C24_in_order ops strict (fun _ => E) 0 0 none E R rfl).2.1
    rw [h2]
    constructor
    · rintro ⟨h3, h4⟩
      apply List.ext_getElem h3.symm
      intro i g1 g2
      exact ((hops _ _).1 (h4 i g2 g1)).symm
    · rintro rfl
      exact ⟨rfl, fun i g1 g2 => (hops _ _).2 rfl⟩
  | true =>
    obtain ⟨-, a2, a3⟩ := new_addInterface ops true (fun _ => E) 0 0 none 0 strict
    obtain ⟨r1, r2⟩ := receiveAll_feed _ 0 R 0 _ a3
    have hexp : ((World.new true (fun _ => E)).addInterface ops 0 (busMonitor none) (.list 0) .none 0 strict).1.sb.expected =
      [(0, .list 0)] := by rw [a2]
    have hheap : ((World.new true (fun _ => E)).addInterface ops 0 (busMonitor none) (.list 0) .none 0 strict).1.sb.heap 0 = E := by rw [a2]
    have herr : ((World.new true (fun _ => E)).addInterface ops 0 (busMonitor none) (.list 0) .none 0 strict).1.sb.errors = 0 := by rw [a2]
    have hb := C27_fail_immediately ops strict (fun _ => E) 0 0 none R
    by_cases hE : ∃ E', E = R ++ E'
    · obtain ⟨sb', f1, f2, f3, f4⟩ := feed_exact ops none 0 strict R 0 _ (by rw [hheap]; exact hE) (fun a => (hops a a).2 rfl)
      rw [f1] at r1
      rw [r1, result_single sb' 0 0 (by rw [f2, hexp]), f3, f4, herr, hheap]
      obtain ⟨E', rfl⟩ := hE
      simp
    · have hbad : ∃ k, firstBad ops strict R E = some k := by
        cases hf : firstBad ops strict R E with
        | some k => exact ⟨k, rfl⟩
        | none =>
          exfalso
          apply hE
          clear r1 r2 a2 a3 hb hexp hheap herr hE
          induction R generalizing E with
          | nil => exact ⟨E, rfl⟩
          | cons t r ih =>
            cases E with
            | nil => simp [firstBad] at hf
            | cons e E =>
              simp only [firstBad] at hf
              split at hf
              · rename_i hacc
                obtain ⟨E', hE'⟩ := ih E (by simpa using hf)
                exact ⟨E', by rw [hE', (hops _ _).1 hacc]; rfl⟩
              · cases hf
      obtain ⟨k, hk⟩ := hbad
      simp only [hk] at hb
      constructor
      · intro hr
        exfalso
        unfold SB.result at hr
        split at hr
        · cases hr
        · rw [if_pos (by rw [hb.2]; decide)] at hr; cases hr
      · rintro rfl
        exact absurd ⟨[], by simp⟩ hE

/-- a part of what is expected never gives an error -/
theorem no_alarm (ops : TxnOps T) (strict imm : Bool) (hops : ∀ a b, Accepts ops strict a b ↔ a = b) (R : List T) (k : Nat) :
    let r := ((World.new imm (fun _ => R)).addInterface ops 0 (busMonitor none) (.list 0) .none 0 strict).1.receiveAll 0 (R.take k) 0
    r.2 = none ∧ r.1.sb.errors = 0 := by
  obtain ⟨-, a2, a3⟩ := new_addInterface ops imm (fun _ => R) 0 0 none 0 strict
  obtain ⟨r1, r2⟩ := receiveAll_feed _ 0 (R.take k) 0 _ a3
  obtain ⟨sb', f1, -, -, f4⟩ := feed_exact ops none 0 strict (R.take k) 0
    ((World.new imm (fun _ => R)).addInterface ops 0 (busMonitor none) (.list 0) .none 0 strict).1.sb
    ⟨R.drop k, by rw [a2]; simp⟩ (fun a => (hops a a).2 rfl)
  rw [f1] at r1 r2
  refine ⟨r2, ?_⟩
  rw [r1, f4, a2]

end CocotbBus
