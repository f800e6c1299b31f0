import Verif.Proof.QuatDrift
import Mathlib.Tactic.NormNum

/-!
# C180: rotations composed one after the other
-/

namespace Rpp.Props
open Rpp.VMath Rpp.Spec

variable {p : Nat}

/-- **C180.** The product of quaternions, multiplied one after the other with rounding, is near the exact product: the distance and the change of
length grow with the number of products and not faster, whatever the quaternions. `N` is the square of the length of the exact product. -/
theorem C180_drift (q : Quat (Fl p)) (qs : List (Quat (Fl p))) :
    let N := size2 (exactQ q) * (qs.map fun r => size2 (exactQ r)).prod
    let c := (1 + drift p) ^ qs.length - 1
    let r := exactQ (qs.foldl Quat.mul q)
    let e := (qs.map exactQ).foldl Quat.mul (exactQ q)
    size2 e = N ∧ dist2 r e ≤ c ^ 2 * N ∧ (1 - 2 * c) * N ≤ size2 r ∧ size2 r ≤ (1 + c) ^ 2 * N := by
  intro N c r e
  obtain ⟨h1, h2⟩ := chain_dist qs q (exactQ q) 0 (le_refl _) (by simp [dist2])
  have hc : 0 ≤ c := by
    have := one_le_pow₀ (n := qs.length) (show 1 ≤ 1 + drift p by linarith [drift_nonneg p])
    show 0 ≤ (1 + drift p) ^ qs.length - 1
    linarith
  have hN : 0 ≤ N := by
    have := size2_nonneg e
    rwa [show size2 e = N from h2] at this
  have hd : dist2 r e ≤ c ^ 2 * N := by
    refine h1.trans (le_of_eq ?_)
    show ((1 + 0) * (1 + drift p) ^ qs.length - 1) ^ 2 * N = ((1 + drift p) ^ qs.length - 1) ^ 2 * N
    rw [add_zero, one_mul]
  have he : size2 e ≤ 1 ^ 2 * N := by
    rw [show size2 e = N from h2, one_pow, one_mul]
  obtain ⟨t1, t2⟩ := triangle (x := r.x - e.x) (y := r.y - e.y) (z := r.z - e.z) (w := r.w - e.w) hc zero_le_one hN hd he
  refine ⟨h2, hd, ?_, ?_⟩
  · have t3 := (abs_le.1 t2).1
    have hp : 0 ≤ dist2 r e := by unfold dist2; positivity
    have e2 : size2 r = dist2 r e + 2 * ((r.x - e.x) * e.x + (r.y - e.y) * e.y + (r.z - e.z) * e.z + (r.w - e.w) * e.w) + size2 e := by
      unfold size2 dist2
      ring
    rw [e2, show size2 e = N from h2]
    linarith
  · have : size2 r ≤ (c + 1) ^ 2 * N := by simpa [size2] using t1
    rwa [add_comm] at this

/-- **C180, in numbers.** After up to a thousand products of quaternions in `f32`, length and direction are off by less than one part in two
thousand. -/
theorem C180_thousand (q : Quat (Fl 24)) (qs : List (Quat (Fl 24))) (hk : qs.length ≤ 1000) :
    let N := size2 (exactQ q) * (qs.map fun r => size2 (exactQ r)).prod
    let r := exactQ (qs.foldl Quat.mul q)
    let e := (qs.map exactQ).foldl Quat.mul (exactQ q)
    dist2 r e ≤ (1 / 2000) ^ 2 * N ∧ (1 - 1 / 1000) * N ≤ size2 r ∧ size2 r ≤ (1 + 1 / 2000) ^ 2 * N := by
  intro N r e
  obtain ⟨h0, h1, h2, h3⟩ := C180_drift q qs
  have hN : 0 ≤ N := by
    have := size2_nonneg e
    rwa [show size2 e = N from h0] at this
  have hd := drift_nonneg 24
  have hc : (1 + drift 24) ^ qs.length - 1 ≤ 1 / 2000 := by
    have m := pow_le_pow_right₀ (show 1 ≤ 1 + drift 24 by linarith) hk
    exact sub_le_iff_le_add'.2 (m.trans drift_thousand)
  have hc0 : 0 ≤ (1 + drift 24) ^ qs.length - 1 := by
    have := one_le_pow₀ (n := qs.length) (show 1 ≤ 1 + drift 24 by linarith)
    linarith
  refine ⟨h1.trans (mul_le_mul_of_nonneg_right (pow_le_pow_left₀ hc0 hc 2) hN), le_trans ?_ h2,
    h3.trans (mul_le_mul_of_nonneg_right (pow_le_pow_left₀ (by linarith) (by linarith) 2) hN)⟩
  refine mul_le_mul_of_nonneg_right ?_ hN
  linarith

/-- A turn about `z`, three times: the length and the distance from the exact product, in a precision of eight bits. -/
example :
    let q : Quat (Fl 8) := ⟨0, 0, ⟨3 / 5 + 1 / 640⟩, ⟨205 / 256⟩⟩
    size2 (exactQ ([q, q].foldl Quat.mul q)) ≠ size2 (exactQ q) * (size2 (exactQ q) * size2 (exactQ q)) ∧
    dist2 (exactQ ([q, q].foldl Quat.mul q)) ([exactQ q, exactQ q].foldl Quat.mul (exactQ q)) ≤ 1 / 10000 := by
  decide +kernel

end Rpp.Props
