import Verif.Proof.Slice

/-!
# C130: slices and references

`start mem` is a program with a slice of a whole array; the specification has windows, which are lists of places.
-/

namespace Rpp.Props
open Rpp.Slc
open Rpp.Spec.Win (Op Fits ROp NoSelf)

variable {α : Type}

/-- What a state of the model looks like without pointers: each slice as the list of places it shows. -/
def shown (s : Slc.St α) : Spec.Win.St α := ⟨s.mem, s.vars.map fun w => List.range' w.off w.len, s.out⟩

/-- **C130, partial.** Programs on slices do what windows do: the same results, the same changes to the array, and the same
failed checks; they never leave the array. Full statement: all programs. Missing because false: parts whose end is not a 64-bit
number, see `C130_wrap`. -/
theorem C130_slices_partial (mem : List α) (hm : mem.length < 2 ^ 64) (p : List (Op α)) (hf : ∀ o ∈ p, Fits o) :
    (Slc.run (start mem) p).map shown = Spec.Win.run ⟨mem, [List.range mem.length], []⟩ p := by
  have h := run_refines p (s := start mem) ⟨by simp [start], hm⟩ hf
  have e : abs (start mem) = ⟨mem, [List.range mem.length], []⟩ := by
    simp [abs, start, places, List.range_eq_range']
  rw [e] at h
  exact h

example : (Slc.run (start [10, 20, 30, 40, 50]) [.sub 0 1 3, .sub 1 1 2, .write 2 0 7, .all 1, .back 2, .front 0]).map shown =
    .ok ⟨[10, 20, 7, 40, 50], [[0, 1, 2, 3, 4], [1, 2, 3], [2, 3]], [20, 7, 40, 40, 10]⟩ := by decide

example : (Slc.run (start [10, 20, 30]) [.sub 0 1 2, .read 1 2]).map shown = .error .die := by decide

/-- **C130 is false**: `sub(start, n)` accepts every part whose end wraps around to at most the length of the slice. The result
reaches beyond the array, so that an access which passes the check of `operator[]` is undefined. -/
theorem C130_wrap (mem : List α) (hm : mem.length < 2 ^ 64) (w : Slice) {first n : Nat} (hs : first < 2 ^ 64)
    (h : 2 ^ 64 ≤ first + n) (hl : first + n ≤ 2 ^ 64 + w.len) (hw : w.len < 2 ^ 64) :
    sub w first n = .ok ⟨w.off + first, n⟩ ∧ ∃ i < n, at' mem ⟨w.off + first, n⟩ i = .error .ub := by
  constructor
  · unfold sub
    rw [if_pos (by unfold wadd; omega)]
  · refine ⟨mem.length - (w.off + first), by omega, ?_⟩
    unfold at' raw
    dsimp only
    rw [if_pos (by omega), List.getElem?_eq_none (by omega)]

/-- Two programs it accepts: two elements from 2^64 - 1 on, and 2^64 - 1 elements from 1 on. -/
theorem C130_false :
    Slc.run (start [10, 20, 30]) [.sub 0 (2 ^ 64 - 1) 2, .read 1 0] = .error .ub ∧
    Slc.run (start [10, 20, 30]) [.sub 0 1 (2 ^ 64 - 1), .write 1 2 0] = .error .ub ∧
    Spec.Win.run ⟨[10, 20, 30], [[0, 1, 2]], []⟩ [.sub 0 (2 ^ 64 - 1) 2] = .error .die := by decide

/-- **`Ref`, partial.** Programs on references do what names do, as long as none is moved to itself. -/
theorem C130_refs_partial (p : List ROp) (hp : ∀ o ∈ p, NoSelf o) (s : List (Option Nat) × List Nat) :
    Slc.rrun s p = Spec.Win.rrun s p := by
  induction p generalizing s with
  | nil => rfl
  | cons o p ih =>
    unfold Slc.rrun Spec.Win.rrun
    rw [rstep_eq s o (hp o (.head _))]
    cases Spec.Win.rstep s o with
    | error e => rfl
    | ok s' => exact ih (fun o ho => hp o (.tail _ ho)) s'

example : Slc.rrun ([], []) [.new 5, .null, .moveTo 1 0, .copy 1, .use 2, .use 1] = .ok ([none, some 5, some 5], [5, 5]) ∧
    Slc.rrun ([], []) [.new 5, .moveNew 0, .use 0] = .error .die := by decide

/-- A reference moved to itself is null afterwards, whatever it referred to. -/
theorem C130_refs_false (s : List (Option Nat) × List Nat) {x : Nat} {a : Option Nat} (h : s.1[x]? = some a) :
    Slc.rrun s [.moveTo x x, .use x] = .error .die ∧ Spec.Win.rstep s (.moveTo x x) = .ok (s.1, s.2) := by
  have hx := (List.getElem?_eq_some_iff.mp h).1
  constructor
  · simp [Slc.rrun, Slc.rstep, h, bind, Except.bind, hx]
  · simp only [Spec.Win.rstep, h]
    have : s.1.set x a = s.1 := by
      apply List.ext_getElem?
      intro i
      rw [List.getElem?_set]
      split
      · next e => subst e; exact h.symm
      · rfl
    simp [this]

example : Slc.rrun ([], []) [.new 5, .moveTo 0 0, .use 0] = .error .die ∧
    Spec.Win.rrun ([], []) [.new 5, .moveTo 0 0, .use 0] = .ok ([some 5], [5]) := by decide

end Rpp.Props
