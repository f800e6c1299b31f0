import Verif.Proof.Report

/-!
# C127: how a failed check is reported
-/

namespace Rpp.Props
open Rpp Rpp.Spec Rpp.Reg

variable {lim : Nat} {s : Reg} {sc : List Scope}

/-- The bytes of the text of a message. -/
def textLen : Msg → Nat
  | .user n => n
  | .depth => "Assert: current_region < MAX_REGION_DEPTH".length
  | .ret => "Assert: ret".length

private theorem textLen_eq (m : Msg) : textLen m = m.len := by
  cases m with
  | user n => rfl
  | depth => decide
  | ret => decide

/-- **C127, partial.** With fewer than 127 scopes open and room for the text, a failed check prints its own message; one
call is enough. Full statement: this holds in every state. Missing because false: `C127_depth`, `C127_no_memory`. -/
theorem C127_reports_partial (hlim : lim < 2 ^ 62) (h : Run lim s sc) {m : Msg} (hm : textLen m < 2 ^ 63) (hd : s.depth < 127)
    (hr : Room lim s (textLen m)) (fuel : Nat) : report lim (fuel + 1) s m = some m := by
  rw [textLen_eq] at hm hr
  unfold report
  rcases begin_ok (h.inv hlim) LOG with ⟨_, s', e, hi⟩ | ⟨hx, _⟩
  · rw [e]
    dsimp only
    obtain ⟨r, e2⟩ := (alloc_room hlim hi hm).1 (by unfold Room; rw [begin_chunks e]; exact hr)
    dsimp only at e2
    rw [e2]
  · unfold Reg.depth at hd; omega

/-- In the same case a message that is not a failure leaves the regions of the thread as they were. -/
theorem C127_log_restores_partial (hlim : lim < 2 ^ 62) (h : Run lim s sc) {n : Nat} (hn : n < 2 ^ 63) (hd : s.depth < 127)
    (hr : Room lim s n) (fuel : Nat) :
    ∃ s', Reg.log lim fuel s n = .ok s' ∧ s'.chunks = s.chunks ∧ s'.size = s.size ∧ s'.depth = s.depth ∧ Run lim s' sc := by
  rcases begin_ok (h.inv hlim) LOG with ⟨_, s1, e, hi⟩ | ⟨hx, _⟩
  · obtain ⟨⟨s2, id, off⟩, e2⟩ := (alloc_room hlim hi hn).1 (by unfold Room; rw [begin_chunks e]; exact hr)
    dsimp only at e2
    have hrun := Run.alloc (Run.begin h e) hn e2
    cases sc with
    | nil => have := (h.inv hlim).cur; simp at this
    | cons d sc =>
      obtain ⟨s3, e3, h1, h2, h3, h4⟩ := end_ok hlim (hrun.inv hlim)
      refine ⟨s3, ?_, h2, h3, ?_, Run.close hrun e3⟩
      · unfold Reg.log
        rw [e]
        dsimp only
        rw [e2]
        dsimp only at e3 ⊢
        rw [e3]
      · have := (h.inv hlim).cur
        unfold Reg.depth at *
        simp at this
        omega
  · unfold Reg.depth at hd; omega

/-- **C127 is false in the innermost of 127 scopes**: opening a scope for the message fails the check on the number of
scopes, whose message needs a scope as well. However many calls there is room for, none of them prints. -/
theorem C127_depth (h : 127 ≤ s.depth) (fuel : Nat) (m : Msg) (n : Nat) :
    report lim fuel s m = none ∧ Reg.log lim fuel s n = .error none := by
  refine ⟨report_deep fuel s m h, ?_⟩
  unfold Reg.log
  rw [begin_error h]
  dsimp only
  rw [report_deep fuel _ _ (by unfold Reg.depth at h; show 127 ≤ s.current + 1; omega)]

/-- **C127 is false when memory is exhausted**: if neither the text nor `Assert: ret` fits, each message is about the
memory missing for the one before, down to the 128th scope and on. -/
theorem C127_no_memory (hlim : lim < 2 ^ 62) (h : Run lim s sc) {m : Msg} (hm : textLen m < 2 ^ 63)
    (h1 : ¬ Room lim s (textLen m)) (h2 : ¬ Room lim s 11) (fuel : Nat) : report lim fuel s m = none := by
  rw [textLen_eq] at hm h1
  exact report_full hlim fuel s sc m (h.inv hlim) hm h1 h2

/-- When `Assert: ret` fits but the text does not, `Assert: ret` is printed in its place, given another scope. -/
theorem C127_replaced (hlim : lim < 2 ^ 62) (h : Run lim s sc) {m : Msg} (hm : textLen m < 2 ^ 63)
    (h1 : ¬ Room lim s (textLen m)) (h2 : Room lim s 11) (hd : s.depth < 126) (fuel : Nat) :
    report lim (fuel + 2) s m = some .ret := by
  rw [textLen_eq] at hm h1
  have e1 := begin_ok (h.inv hlim) LOG
  rcases e1 with ⟨_, s', e, hi⟩ | ⟨hx, _⟩
  · unfold report
    rw [e]
    dsimp only
    have ha := (alloc_room hlim hi hm).2 (by unfold Room; rw [begin_chunks e]; exact h1)
    dsimp only at ha
    rw [ha]
    dsimp only
    refine C127_reports_partial hlim (Run.begin h e) (by decide) ?_ (by unfold Room; rw [begin_chunks e]; exact h2) fuel
    have h3 := hi.cur; have h4 := (h.inv hlim).cur
    unfold Reg.depth at *
    simp at h3
    omega
  · unfold Reg.depth at hd; omega

/-- `n` scopes, one in the other. -/
def nest : Nat → Res Reg
  | 0 => .ok Reg.init
  | n + 1 => do (← nest n).begin 7

/-- With 126 scopes open the message is printed, with 127 it is not. -/
theorem C127_false : (nest 126).map (fun s => report (2 ^ 40) 5 s (.user 22)) = .ok (some (.user 22)) ∧
    (nest 127).map (fun s => report (2 ^ 40) 5 s (.user 22)) = .ok none := by
  decide +kernel

/-- A thread that has filled its first chunk up to 5 or to 15 bytes, in a system with no memory left. -/
example : ((do (← nest 1).alloc 0 7 995 : Res _).map fun r => report 0 60 r.1 (.user 22)) = .ok none ∧
    ((do (← nest 1).alloc 0 7 985 : Res _).map fun r => report 0 60 r.1 (.user 22)) = .ok (some .ret) := by
  decide +kernel

/-- Such states are reached, and the hypotheses of the theorems hold in them. -/
example : ∃ s sc, Run 0 s sc ∧ ¬ Room 0 s 22 ∧ ¬ Room 0 s 11 := by
  refine ⟨_, _, Run.alloc (n := 995) (b := 7) (Run.begin (b := 7) Run.start rfl) (by decide) rfl, ?_, ?_⟩ <;>
    (unfold Room; simp [Reg.init, FIRST, CHUNK, wadd])

end Rpp.Props
