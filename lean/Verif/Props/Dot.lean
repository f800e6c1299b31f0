import Verif.Proof.Dot

/-!
# C151: the accuracy of dot products

Full statement: the relative error of `dot` and of `norm2` is at most that of one rounding for each component, in every floating point type.
For `dot` this is false, as products of different sign cancel (`C151_false`).
-/

namespace Rpp.Props
open Rpp.Dot Rpp.Lerp Rpp.Angle

/-- **C151, partial.** The error of `dot` is at most `n` roundings of the sum of the magnitudes of the products, with and without SIMD, and
also if products and sums are fused. Missing: relative to the result. -/
theorem C151_dot_partial {p : Nat} (hp : 1 ≤ p) {simd : Bool} {n : Nat} (hs : simd = true → n = 4) (x y : Nat → Rat) :
    (∃ r, Vect.dot (ops p) simd n x y = .ok r ∧
      |r - ∑ i ∈ Finset.range n, x i * y i| ≤ ((1 + 1 / 2 ^ p) ^ n - 1) * ∑ i ∈ Finset.range n, |x i * y i|) ∧
    |dotFused p x y n - ∑ i ∈ Finset.range n, x i * y i| ≤ ((1 + 1 / 2 ^ p) ^ n - 1) * ∑ i ∈ Finset.range n, |x i * y i| :=
  ⟨⟨_, dot_eq hs x y, dotTwo_err hp x y n⟩, dotFused_err hp x y n⟩

/-- The error of `norm2` is at most `n` roundings of the result. -/
theorem C151_norm2 {p : Nat} (hp : 1 ≤ p) {simd : Bool} {n : Nat} (hs : simd = true → n = 4) (x : Nat → Rat) :
    (∃ r, Vect.norm2 (ops p) simd n x = .ok r ∧
      |r - ∑ i ∈ Finset.range n, x i ^ 2| ≤ ((1 + 1 / 2 ^ p) ^ n - 1) * ∑ i ∈ Finset.range n, x i ^ 2) ∧
    |dotFused p x x n - ∑ i ∈ Finset.range n, x i ^ 2| ≤ ((1 + 1 / 2 ^ p) ^ n - 1) * ∑ i ∈ Finset.range n, x i ^ 2 := by
  have h := C151_dot_partial hp hs x x
  have e1 : ∑ i ∈ Finset.range n, x i ^ 2 = ∑ i ∈ Finset.range n, x i * x i := Finset.sum_congr rfl fun i _ => sq (x i)
  have e2 : ∑ i ∈ Finset.range n, |x i * x i| = ∑ i ∈ Finset.range n, x i * x i :=
    Finset.sum_congr rfl fun i _ => abs_mul_self (x i)
  rw [e2] at h
  rw [e1]
  exact h

/-- **C151 is false of the code:** in `f32` the product of `(4097, 1)` and `(4097, -16785408)` is 1, and comes out as 0, fused or not. -/
theorem C151_false :
    let x : Nat → Rat := fun i => if i = 0 then 4097 else 1
    let y : Nat → Rat := fun i => if i = 0 then 4097 else -16785408
    x 0 * y 0 + x 1 * y 1 = 1 ∧ Vect.dot (ops 24) false 2 x y = .ok 0 ∧ dotFused 24 x y 2 = 0 := by decide +kernel

/-- Four components of `f32`: the relative error of `norm2` is below `2 ^ -21`. -/
example : (1 + 1 / 2 ^ 24 : Rat) ^ 4 - 1 < 1 / 2 ^ 21 := by norm_num

/-- A vector whose norm is rounded. -/
example : Vect.norm2 (ops 24) false 2 (fun i => if i = 0 then 4097 else 4098) = .ok 33579012 ∧
    (4097 : Rat) ^ 2 + 4098 ^ 2 = 33579013 := by
  constructor
  · decide +kernel
  · norm_num

end Rpp.Props
