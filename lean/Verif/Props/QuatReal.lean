import Verif.Props.Quat
import Mathlib.Analysis.SpecialFunctions.Trigonometric.Basic
import Mathlib.Analysis.SpecialFunctions.Complex.Arg

/-!
# C88, C89 with the real functions

The functions assumed in `Props/Quat` exist: the sine and cosine of the real numbers in degrees, and the argument of a
complex number as `atan2`.
-/

namespace Rpp.Props

open Rpp.VMath Rpp.Spec

/-- The real sine and cosine in degrees. -/
theorem trig_real : Trig (fun t : ℝ => Real.cos (t * (Real.pi / 180))) (fun t => Real.sin (t * (Real.pi / 180))) where
  one t := by nlinarith [Real.sin_sq_add_cos_sq (t * (Real.pi / 180))]
  cos2 t := by
    have e : t * (Real.pi / 180) = 2 * (t * 2⁻¹ * (Real.pi / 180)) := by ring
    rw [e, Real.cos_two_mul']
    ring
  sin2 t := by
    have e : t * (Real.pi / 180) = 2 * (t * 2⁻¹ * (Real.pi / 180)) := by ring
    rw [e, Real.sin_two_mul]
  zero := by simp
  half := by
    have e : (180 : ℝ) * (Real.pi / 180) = Real.pi := by ring
    simp only [e]
    simp

/-- `C88_euler_partial` for real angles. -/
theorem C88_euler_real_partial (a : V3 ℝ) (ha : a ≠ ⟨180, 0, 0⟩) :
    (Quat.euler (fun t => Real.cos (t * (Real.pi / 180))) (fun t => Real.sin (t * (Real.pi / 180))) a).to_mat =
      ((Mat4.rotate Real.sqrt (Real.cos (a.z * (Real.pi / 180))) (Real.sin (a.z * (Real.pi / 180))) ⟨0, 0, 1⟩).mul
        (Mat4.rotate Real.sqrt (Real.cos (a.y * (Real.pi / 180))) (Real.sin (a.y * (Real.pi / 180))) ⟨0, 1, 0⟩)).mul
        (Mat4.rotate Real.sqrt (Real.cos (a.x * (Real.pi / 180))) (Real.sin (a.x * (Real.pi / 180))) ⟨1, 0, 0⟩) :=
  C88_euler_partial trig_real Real.sqrt_one a ha

/-- `C89_to_euler_partial` for real rotations, `atan2` in radians. -/
theorem C89_to_euler_real_partial {flip : V3 ℝ} {far : V3 ℝ → V3 ℝ → Bool} {ε : ℝ} (hε : 0 ≤ ε) (hε' : ε ≤ 1 / 4)
    {x y z : V3 ℝ} (hr : IsRotation (Mat4.mk (.ofV3 x 0) (.ofV3 y 0) (.ofV3 z 0) ⟨0, 0, 0, 1⟩ : Mat4 ℝ).toMatrix)
    (hb : ε < Real.sqrt (x.x ^ 2 + x.y ^ 2) ∨ Real.sqrt (x.x ^ 2 + x.y ^ 2) = 0) :
    let m : Mat4 ℝ := ⟨.ofV3 x 0, .ofV3 y 0, .ofV3 z 0, ⟨0, 0, 0, 1⟩⟩
    let e := Mat4.to_euler (fun a b => Real.sqrt (a ^ 2 + b ^ 2)) (fun b a => Complex.arg ⟨a, b⟩)
      (fun a b => decide (|a - b| < ε)) (fun a => decide (ε < a)) flip 0 far m
    ((Mat4.rotate Real.sqrt (Real.cos e.z) (Real.sin e.z) ⟨0, 0, 1⟩).mul
      (Mat4.rotate Real.sqrt (Real.cos e.y) (Real.sin e.y) ⟨0, 1, 0⟩)).mul
      (Mat4.rotate Real.sqrt (Real.cos e.x) (Real.sin e.x) ⟨1, 0, 0⟩) = m := by
  refine C89_to_euler_partial (cos := Real.cos) (sin := Real.sin) Real.sqrt_one (fun a b => ⟨Real.sqrt_nonneg _, ?_⟩)
    (fun b a => ?_) ⟨Real.cos_zero, Real.sin_zero⟩ hε hε' hr hb
  · rw [Real.mul_self_sqrt (by positivity)]
    ring
  · have hn : Real.sqrt (a ^ 2 + b ^ 2) = ‖(⟨a, b⟩ : ℂ)‖ := by
      rw [Complex.norm_def, Complex.normSq_mk]
      congr 1
      ring
    rw [hn]
    exact ⟨(Complex.norm_mul_cos_arg ⟨a, b⟩).symm, (Complex.norm_mul_sin_arg ⟨a, b⟩).symm⟩

/-- A rotation that meets the hypotheses: the turn by 3-4-5 about z. -/
example : IsRotation (Mat4.mk (.ofV3 ⟨3 / 5, 4 / 5, 0⟩ 0) (.ofV3 ⟨-4 / 5, 3 / 5, 0⟩ 0) (.ofV3 ⟨0, 0, 1⟩ 0) ⟨0, 0, 0, 1⟩ : Mat4 ℝ).toMatrix :=
  frame_rotation (by norm_num) (by norm_num) (by norm_num) (by simp only [V3.cross, V3.mk.injEq]; norm_num)

end Rpp.Props
