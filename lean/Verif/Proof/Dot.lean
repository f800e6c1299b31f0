import Verif.Model.Dot
import Verif.Proof.Lerp
import Mathlib.Algebra.BigOperators.Group.Finset.Basic
import Mathlib.Algebra.Order.BigOperators.Group.Finset

/-! Lemmas on rounded sums of products. -/

namespace Rpp.Dot
open Rpp.Angle Rpp.Spec Rpp.Lerp

/-- The loop with two roundings. -/
def dotTwo (p : Nat) (x y : Nat → Rat) : Nat → Rat
  | 0 => 0
  | n + 1 => Angle.round p (dotTwo p x y n + Angle.round p (x n * y n))

theorem loop_dot (p : Nat) (x y : Nat → Rat) (n : Nat) :
    Vect.loop (fun i r => do (ops p).add r (← (ops p).mul (x i) (y i))) n (ops p).zero = .ok (dotTwo p x y n) := by
  induction n with
  | zero => rfl
  | succ n ih =>
    rw [Vect.loop, ih]
    rfl

theorem dot_eq {p : Nat} {simd : Bool} {n : Nat} (hs : simd = true → n = 4) (x y : Nat → Rat) :
    Vect.dot (ops p) simd n x y = .ok (dotTwo p x y n) := by
  cases simd with
  | true => rw [hs rfl]; rfl
  | false => exact loop_dot p x y n

/-- One turn of the loop. -/
theorem step_err {p : Nat} {r s a e z m : Rat} (hr : |r - s| ≤ e * a) (hsa : |s| ≤ a) (hm : |m - z| ≤ 1 / 2 ^ p * |z|) :
    |Angle.round p (r + m) - (s + z)| ≤ ((1 + e) * (1 + 1 / 2 ^ p) - 1) * a + ((1 + 1 / 2 ^ p) ^ 2 - 1) * |z| := by
  have hu : (0 : Rat) < 1 / 2 ^ p := by positivity
  have h1 : |Angle.round p (r + m) - (r + m)| ≤ |r + m| * (1 / 2 ^ p) := (round_err p _).trans (le_of_eq (by ring))
  have h2 := abs_sub_le (Angle.round p (r + m)) (r + m) (s + z)
  have h3 : |r + m - (s + z)| ≤ |r - s| + |m - z| := by
    rw [show r + m - (s + z) = (r - s) + (m - z) by ring]
    exact abs_add_le _ _
  have h4 : |r + m| ≤ |r + m - (s + z)| + (|s| + |z|) := by
    have := abs_add_le (r + m - (s + z)) (s + z)
    rw [sub_add_cancel] at this
    linarith [abs_add_le s z]
  generalize (1 : Rat) / 2 ^ p = u at *
  have h5 : |r + m| * u ≤ (e * a + u * |z| + (a + |z|)) * u := by
    gcongr
    linarith
  nlinarith

theorem sum_err {p : Nat} (hp : 1 ≤ p) (x y : Nat → Rat) (d : Nat → Rat) (m : Nat → Rat) (h0 : d 0 = 0)
    (hd : ∀ n, d (n + 1) = Angle.round p (d n + m n)) (hm : ∀ n, |m n - x n * y n| ≤ 1 / 2 ^ p * |x n * y n|)
    (hf : IsFloat p (m 0) ∨ m 0 = x 0 * y 0) (n : Nat) :
    |d n - ∑ i ∈ Finset.range n, x i * y i| ≤ ((1 + 1 / 2 ^ p) ^ n - 1) * ∑ i ∈ Finset.range n, |x i * y i| := by
  have hu : (0 : Rat) < 1 / 2 ^ p := by positivity
  have first : |d 1 - x 0 * y 0| ≤ 1 / 2 ^ p * |x 0 * y 0| := by
    rw [hd 0, h0, zero_add]
    rcases hf with hf | hf
    · rw [round_float hf]
      exact hm 0
    · rw [hf]
      exact (round_err p _).trans (le_of_eq (by ring))
  induction n with
  | zero => simp [h0]
  | succ n ih =>
    rw [Finset.sum_range_succ, Finset.sum_range_succ]
    by_cases hn : n = 0
    · subst hn
      simpa using first
    · have hs : |∑ i ∈ Finset.range n, x i * y i| ≤ ∑ i ∈ Finset.range n, |x i * y i| := Finset.abs_sum_le_sum_abs _ _
      have ha : 0 ≤ ∑ i ∈ Finset.range n, |x i * y i| := (abs_nonneg _).trans hs
      have := step_err ih hs (hm n)
      rw [hd n]
      refine this.trans ?_
      have h2 : (1 + 1 / 2 ^ p : Rat) ^ 2 ≤ (1 + 1 / 2 ^ p) ^ (n + 1) := pow_le_pow_right₀ (by linarith) (by omega)
      have h3 : ((1 + 1 / 2 ^ p : Rat) ^ 2 - 1) * |x n * y n| ≤ ((1 + 1 / 2 ^ p) ^ (n + 1) - 1) * |x n * y n| := by gcongr
      calc _ ≤ ((1 + ((1 + 1 / 2 ^ p) ^ n - 1)) * (1 + 1 / 2 ^ p) - 1) * ∑ i ∈ Finset.range n, |x i * y i| +
            ((1 + 1 / 2 ^ p) ^ (n + 1) - 1) * |x n * y n| := by linarith
        _ = _ := by ring

theorem dotTwo_err {p : Nat} (hp : 1 ≤ p) (x y : Nat → Rat) (n : Nat) :
    |dotTwo p x y n - ∑ i ∈ Finset.range n, x i * y i| ≤ ((1 + 1 / 2 ^ p) ^ n - 1) * ∑ i ∈ Finset.range n, |x i * y i| :=
  sum_err hp x y _ (fun n => Angle.round p (x n * y n)) rfl (fun _ => rfl)
    (fun n => (round_err p _).trans (le_of_eq (by ring))) (.inl (round_isFloat hp _)) n

theorem dotFused_err {p : Nat} (hp : 1 ≤ p) (x y : Nat → Rat) (n : Nat) :
    |dotFused p x y n - ∑ i ∈ Finset.range n, x i * y i| ≤ ((1 + 1 / 2 ^ p) ^ n - 1) * ∑ i ∈ Finset.range n, |x i * y i| :=
  sum_err hp x y _ (fun n => x n * y n) rfl (fun _ => rfl) (fun n => by rw [sub_self, abs_zero]; positivity) (.inr rfl) n

end Rpp.Dot
