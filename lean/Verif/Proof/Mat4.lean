import Verif.Spec.Mat4View
import Verif.Model.Mat4
import Verif.Spec.Mat4
import Mathlib.Tactic.Ring
import Mathlib.Tactic.LinearCombination
import Mathlib.Tactic.FinCases
import Mathlib.Tactic.FieldSimp

/-!
# `Mat4`: helper lemmas
-/

namespace Rpp.VMath

open Matrix

variable {K : Type} [Field K]

theorem toMatrix_inj {a b : Mat4 K} (h : a.toMatrix = b.toMatrix) : a = b := by
  have e : ∀ i j : Fin 4, (a.col j).get i = (b.col j).get i := fun i j => congrFun (congrFun h i) j
  obtain ⟨⟨a0, a1, a2, a3⟩, ⟨a4, a5, a6, a7⟩, ⟨a8, a9, a10, a11⟩, ⟨a12, a13, a14, a15⟩⟩ := a
  obtain ⟨⟨b0, b1, b2, b3⟩, ⟨b4, b5, b6, b7⟩, ⟨b8, b9, b10, b11⟩, ⟨b12, b13, b14, b15⟩⟩ := b
  have h00 := e 0 0
  have h10 := e 1 0
  have h20 := e 2 0
  have h30 := e 3 0
  have h01 := e 0 1
  have h11 := e 1 1
  have h21 := e 2 1
  have h31 := e 3 1
  have h02 := e 0 2
  have h12 := e 1 2
  have h22 := e 2 2
  have h32 := e 3 2
  have h03 := e 0 3
  have h13 := e 1 3
  have h23 := e 2 3
  have h33 := e 3 3
  simp [Mat4.col, V4.get] at h00 h10 h20 h30 h01 h11 h21 h31 h02 h12 h22 h32 h03 h13 h23 h33
  simp [*]

theorem toMatrix_mul (a b : Mat4 K) : (a.mul b).toMatrix = a.toMatrix * b.toMatrix := by
  ext i j
  rw [Matrix.mul_apply, Fin.sum_univ_four]
  fin_cases i <;> fin_cases j <;>
    simp [Mat4.toMatrix, Mat4.mul, Mat4.ofCols, Mat4.col, V4.get, V4.add, V4.mul, V4.set1] <;> ring

theorem toMatrix_I : (Mat4.I : Mat4 K).toMatrix = 1 := by
  ext i j
  fin_cases i <;> fin_cases j <;> simp [Mat4.toMatrix, Mat4.I, Mat4.col, V4.get]

theorem toMatrix_transpose (a : Mat4 K) : a.transpose.toMatrix = a.toMatrix.transpose := by
  ext i j
  fin_cases i <;> fin_cases j <;> simp [Mat4.toMatrix, Mat4.transpose, Mat4.ofCols, Mat4.col, V4.get]

theorem toVec_mulV4 (a : Mat4 K) (v : V4 K) : (a.mulV4 v).toVec = a.toMatrix.mulVec v.toVec := by
  ext i
  rw [Matrix.mulVec, dotProduct, Fin.sum_univ_four]
  fin_cases i <;> simp [V4.toVec, Mat4.toMatrix, Mat4.mulV4, Mat4.col, V4.get, V4.add, V4.mul, V4.set1] <;> ring

theorem det_toMatrix (m : Mat4 K) : m.toMatrix.det = (detV m).x := by
  obtain ⟨⟨a0, a1, a2, a3⟩, ⟨a4, a5, a6, a7⟩, ⟨a8, a9, a10, a11⟩, ⟨a12, a13, a14, a15⟩⟩ := m
  rw [Matrix.det_succ_row_zero]
  simp [Fin.sum_univ_succ, Matrix.det_fin_three, Mat4.toMatrix, Mat4.col, V4.get, Fin.succAbove, detV, shuffle, swizzle,
    V4.mul, V4.sub, V4.add, Mat2AdjMul, hadd]
  ring

theorem detV_lanes (m : Mat4 K) : (detV m).y = (detV m).x ∧ (detV m).z = (detV m).x ∧ (detV m).w = (detV m).x := by
  refine ⟨?_, ?_, ?_⟩ <;> simp [detV, swizzle, V4.sub, V4.add, V4.mul, hadd, V4.get] <;> ring

theorem mul_inverse (m : Mat4 K) (h : (detV m).x ≠ 0) : m.mul m.inverse = Mat4.I := by
  obtain ⟨hy, hz, hw⟩ := detV_lanes m
  have hd : detV m = V4.set1 (detV m).x := by
    cases hv : detV m
    rw [hv] at hy hz hw
    simp at hy hz hw
    simp [V4.set1, hy, hz, hw]
  have he : (detV m).x * (detV m).x⁻¹ = 1 := mul_inv_cancel₀ h
  obtain ⟨e, hr⟩ : ∃ e, (detV m).x⁻¹ = e := ⟨_, rfl⟩
  rw [hr] at he
  obtain ⟨⟨a0, a1, a2, a3⟩, ⟨a4, a5, a6, a7⟩, ⟨a8, a9, a10, a11⟩, ⟨a12, a13, a14, a15⟩⟩ := m
  unfold Mat4.inverse
  rw [hd]
  simp only [V4.set1, V4.div, div_eq_mul_inv, hr]
  simp only [detV, shuffle, swizzle, V4.get, V4.mul, V4.sub, V4.add, Mat2AdjMul, hadd] at he
  norm_num at he
  simp [Mat4.mul, Mat4.ofCols, Mat4.col, Mat4.I, V4.set1, shuffle, swizzle, V4.get, V4.mul, V4.sub, V4.add, Mat2Mul, Mat2AdjMul,
    Mat2MulAdj]
  refine ⟨⟨?_, ?_, ?_, ?_⟩, ⟨?_, ?_, ?_, ?_⟩, ⟨?_, ?_, ?_, ?_⟩, ?_, ?_, ?_, ?_⟩ <;>
    first | ring1 | linear_combination he

end Rpp.VMath
