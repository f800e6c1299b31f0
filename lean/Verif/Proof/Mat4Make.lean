import Verif.Proof.Mat4

/-!
# `Mat4` constructors: helper lemmas
-/

namespace Rpp.VMath

open Matrix Rpp.Spec

variable {K : Type} [Field K]

/-- Being a unit vector. -/
theorem unit_unit {sqrt : K → K} {v : V3 K} (hs : sqrt (v.dot v) * sqrt (v.dot v) = v.dot v) (h : v.dot v ≠ 0) :
    (v.unit sqrt).x * (v.unit sqrt).x + (v.unit sqrt).y * (v.unit sqrt).y + (v.unit sqrt).z * (v.unit sqrt).z = 1 := by
  unfold V3.unit V3.sdiv
  dsimp only
  generalize hn : sqrt (v.dot v) = n at hs
  have hn0 : n ≠ 0 := by rintro rfl; rw [← hs] at h; simp at h
  unfold V3.dot at hs
  field_simp
  linear_combination -hs

/-- A matrix whose first three columns are an orthonormal right-handed frame is a rotation. -/
theorem frame_rotation {x y z : V3 K} (hx : x.x * x.x + x.y * x.y + x.z * x.z = 1)
    (hy : y.x * y.x + y.y * y.y + y.z * y.z = 1) (hxy : x.x * y.x + x.y * y.y + x.z * y.z = 0)
    (hz : z = x.cross y) : IsRotation (Mat4.mk (.ofV3 x 0) (.ofV3 y 0) (.ofV3 z 0) ⟨0, 0, 0, 1⟩ : Mat4 K).toMatrix := by
  have h1 : (Mat4.mk (.ofV3 x 0) (.ofV3 y 0) (.ofV3 z 0) ⟨0, 0, 0, 1⟩ : Mat4 K).toMatrix.transpose *
      (Mat4.mk (.ofV3 x 0) (.ofV3 y 0) (.ofV3 z 0) ⟨0, 0, 0, 1⟩ : Mat4 K).toMatrix = 1 := by
    subst hz
    obtain ⟨x0, x1, x2⟩ := x
    obtain ⟨y0, y1, y2⟩ := y
    simp only at hx hy hxy
    ext i j
    rw [Matrix.mul_apply, Fin.sum_univ_four]
    fin_cases i <;> fin_cases j <;> simp [Mat4.toMatrix, Mat4.col, V4.get, V4.ofV3, V3.cross] <;> grind
  refine ⟨h1, ?_, ?_⟩
  · exact mul_eq_one_comm.1 h1
  · rw [det_toMatrix]
    subst hz
    obtain ⟨x0, x1, x2⟩ := x
    obtain ⟨y0, y1, y2⟩ := y
    simp only at hx hy hxy
    simp [detV, shuffle, swizzle, V4.get, V4.ofV3, V3.cross, V4.mul, V4.sub, V4.add, Mat2AdjMul, hadd]
    grind

theorem rotate_rotation {sqrt : K → K} {c s : K} {axis : V3 K} (hcs : c * c + s * s = 1)
    (hs : sqrt (axis.dot axis) * sqrt (axis.dot axis) = axis.dot axis) (h : axis.dot axis ≠ 0) :
    IsRotation (Mat4.rotate sqrt c s axis).toMatrix := by
  have hu := unit_unit hs h
  unfold Mat4.rotate
  generalize axis.unit sqrt = a at hu
  obtain ⟨x, y, z⟩ := a
  simp only [V3.smul] at hu ⊢
  refine frame_rotation (x := ⟨_, _, _⟩) (y := ⟨_, _, _⟩) (z := ⟨_, _, _⟩) ?_ ?_ ?_ ?_
  · simp only; grind
  · simp only; grind
  · simp only; grind
  · simp only [V3.cross, V3.mk.injEq]
    refine ⟨?_, ?_, ?_⟩ <;> grind

theorem rotate_axis {sqrt : K → K} {c s : K} {axis : V3 K}
    (hs : sqrt (axis.dot axis) * sqrt (axis.dot axis) = axis.dot axis) (h : axis.dot axis ≠ 0) :
    (Mat4.rotate sqrt c s axis).rotV3 axis = axis := by
  have hu := unit_unit hs h
  have hn0 : sqrt (axis.dot axis) ≠ 0 := by intro e; rw [e] at hs; rw [← hs] at h; simp at h
  have ha : axis = (axis.unit sqrt).smul (sqrt (axis.dot axis)) := by
    unfold V3.unit V3.smul V3.sdiv
    cases axis
    simp only [V3.mk.injEq]
    refine ⟨?_, ?_, ?_⟩ <;> field_simp
  generalize sqrt (axis.dot axis) = n at ha hn0
  unfold Mat4.rotate
  generalize axis.unit sqrt = a at hu ha
  subst ha
  obtain ⟨x, y, z⟩ := a
  simp only [V3.smul, Mat4.rotV3, Mat4.col, V4.mul, V4.set1, V4.add, V4.xyz, V3.mk.injEq] at hu ⊢
  refine ⟨?_, ?_, ?_⟩ <;> grind

/-- Two turns about the same axis add up: cosine and sine of the sum. -/
theorem rotate_add {sqrt : K → K} {c s c' s' : K} {axis : V3 K}
    (hs : sqrt (axis.dot axis) * sqrt (axis.dot axis) = axis.dot axis) (h : axis.dot axis ≠ 0) :
    (Mat4.rotate sqrt c s axis).mul (Mat4.rotate sqrt c' s' axis) =
      Mat4.rotate sqrt (c * c' - s * s') (s * c' + c * s') axis := by
  have hu := unit_unit hs h
  unfold Mat4.rotate
  generalize axis.unit sqrt = a at hu
  obtain ⟨x, y, z⟩ := a
  simp only [V3.smul, Mat4.mul, Mat4.ofCols, Mat4.col, V4.get, V4.mul, V4.set1, V4.add, Mat4.mk.injEq, V4.mk.injEq] at hu ⊢
  refine ⟨⟨?_, ?_, ?_, ?_⟩, ⟨?_, ?_, ?_, ?_⟩, ⟨?_, ?_, ?_, ?_⟩, ?_, ?_, ?_, ?_⟩ <;> grind

/-- The two directions of `look_at` are orthogonal unit vectors. -/
theorem cross_unit {sqrt : K → K} {f up : V3 K} (hf : f.x * f.x + f.y * f.y + f.z * f.z = 1)
    (hs : sqrt ((f.cross up).dot (f.cross up)) * sqrt ((f.cross up).dot (f.cross up)) = (f.cross up).dot (f.cross up))
    (h : (f.cross up).dot (f.cross up) ≠ 0) :
    let S := (f.cross up).unit sqrt
    S.x * S.x + S.y * S.y + S.z * S.z = 1 ∧ S.x * f.x + S.y * f.y + S.z * f.z = 0 ∧
      S.x * up.x + S.y * up.y + S.z * up.z = 0 := by
  refine ⟨unit_unit hs h, ?_, ?_⟩
  · unfold V3.unit V3.sdiv V3.cross
    dsimp only
    ring
  · unfold V3.unit V3.sdiv V3.cross
    dsimp only
    ring

end Rpp.VMath
