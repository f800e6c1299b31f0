import Verif.Model.FilesWin
import Verif.Props.Math

/-!
# File access on Windows: helper lemmas
-/

namespace Rpp.FilesWin

open Rpp.Spec

variable {P : Type} [DecidableEq P]

theorem close_head (w : World P) (h : Nat) (t : List Nat) (e : w.handles = h :: t) :
    closeHandle w h = .ok { w with handles := t } := by
  unfold closeHandle
  rw [if_pos (by rw [e]; exact List.mem_cons_self), e, List.erase_cons_head]

/-- Closes the handle opened last, leaving the handles given. -/
macro "closes " t:term : tactic => `(tactic| (rw [close_head _ _ $t]; rotate_left; · rfl))

theorem filled_length (n k : Nat) (b : List UInt8) : (filled n k b).length = n := by
  unfold filled
  simp only [List.length_append, List.length_take, List.length_replicate]
  omega

theorem filled_get {n k i : Nat} {b : List UInt8} (hi : i < n) :
    (filled n k b)[i]? = some (if i < k then b[i]?.getD 0 else 0) := by
  unfold filled
  dsimp only
  rw [List.getElem?_append, List.length_take]
  by_cases h1 : i < min (min n k) b.length
  · rw [if_pos h1, List.getElem?_take_of_lt (by omega), if_pos (by omega)]
    rw [List.getElem?_eq_getElem (by omega)]
    rfl
  · rw [if_neg h1, List.getElem?_replicate, if_pos (by omega)]
    split
    · rw [List.getElem?_eq_none (by omega)]
      rfl
    · rfl

theorem filled_all {b : List UInt8} {k : Nat} (h : b.length ≤ k) : filled b.length k b = b := by
  unfold filled
  dsimp only
  rw [Nat.min_eq_left h, List.take_length, Nat.sub_self]
  simp

/-- A number up to `2^32 - 4096` is rounded up to a whole number of sectors. -/
theorem alignSector_eq {n : Nat} (h : n ≤ 0xfffff000) :
    n ≤ alignSector n ∧ alignSector n < n + 4096 ∧ alignSector n ≤ 0xfffff000 ∧ 4096 ∣ alignSector n := by
  obtain ⟨m, hm⟩ := Props.C03_roundUp_exists n (a := 4096) (by omega)
  obtain ⟨⟨q, hq⟩, h1, h2⟩ := hm
  have hd : m ≤ (n + 4095) / 4096 * 4096 := h2 _ ⟨_, Nat.mul_comm _ _⟩ (by omega)
  have e : alignSector n = m :=
    (Props.C03_align (w := 64) (x := n) (a := 4096) (m := m) (by omega) (by omega) ⟨⟨q, hq⟩, h1, h2⟩ (by omega)).2 ⟨12, rfl⟩
  rw [e]
  refine ⟨h1, by omega, by omega, ⟨q, hq⟩⟩

theorem padded_length {data : List UInt8} (h : data.length ≤ 0xfffff000) : (padded data).length = alignSector data.length := by
  unfold padded
  have := alignSector_eq h
  simp only [List.length_append, List.length_replicate]
  omega

theorem padded_take (data : List UInt8) : (padded data).take data.length = data := by
  unfold padded
  rw [List.take_left']
  rfl

/-- The file pointer can be set to sizes below `2^31` only. -/
theorem seekStart_iff {n : Nat} (h : n < 2 ^ 32) (a : Ans) : seekStart n a = true ↔ a.seeks = true ∧ n < 2 ^ 31 := by
  unfold seekStart
  rw [Bool.and_eq_true, decide_eq_true_iff]
  have e : (n : Int) % 2 ^ 32 = n := by omega
  rw [e]
  refine and_congr_right fun _ => ?_
  unfold Int.bmod
  dsimp only
  split <;> omega

end Rpp.FilesWin
