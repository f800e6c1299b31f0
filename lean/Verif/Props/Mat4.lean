import Verif.Proof.Mat4Make
import Mathlib.Algebra.Field.Rat
import Mathlib.Tactic.NormNum
import Mathlib.Tactic.Linarith

/-!
# C69, C70, C82–C85: matrices
-/

namespace Rpp.Props

open Rpp.VMath Rpp.Spec Matrix

variable {K : Type} [Field K]

/-! ## C69: products -/

/-- The operators on `Mat4` are those of 4×4 matrices. -/
theorem C69_matrix (a b : Mat4 K) (v : V4 K) (s : K) :
    (a.mul b).toMatrix = a.toMatrix * b.toMatrix ∧ (a.mulV4 v).toVec = a.toMatrix.mulVec v.toVec ∧
    a.transpose.toMatrix = a.toMatrix.transpose ∧ (Mat4.I : Mat4 K).toMatrix = 1 ∧ (Mat4.zero : Mat4 K).toMatrix = 0 ∧
    (a.add b).toMatrix = a.toMatrix + b.toMatrix ∧ (a.sub b).toMatrix = a.toMatrix - b.toMatrix ∧
    (a.smul s).toMatrix = s • a.toMatrix ∧ (s ≠ 0 → (a.sdiv s).toMatrix = s⁻¹ • a.toMatrix) ∧
    (∀ i j, (a.sadd s).toMatrix i j = a.toMatrix i j + s) ∧ (∀ i j, (a.ssub s).toMatrix i j = a.toMatrix i j - s) := by
  refine ⟨toMatrix_mul a b, toVec_mulV4 a v, toMatrix_transpose a, toMatrix_I, ?_, ?_, ?_, ?_, fun _ => ?_, ?_, ?_⟩
  · ext i j
    fin_cases i <;> fin_cases j <;> rfl
  · ext i j
    fin_cases i <;> fin_cases j <;> simp [Mat4.toMatrix, Mat4.add, Mat4.ofCols, Mat4.col, V4.get, V4.add]
  · ext i j
    fin_cases i <;> fin_cases j <;> simp [Mat4.toMatrix, Mat4.sub, Mat4.ofCols, Mat4.col, V4.get, V4.sub]
  · ext i j
    fin_cases i <;> fin_cases j <;> simp [Mat4.toMatrix, Mat4.smul, Mat4.ofCols, Mat4.col, V4.get, V4.mul, V4.set1, mul_comm]
  · ext i j
    fin_cases i <;> fin_cases j <;>
      simp [Mat4.toMatrix, Mat4.sdiv, Mat4.ofCols, Mat4.col, V4.get, V4.div, V4.set1, div_eq_mul_inv, mul_comm]
  · intro i j
    fin_cases i <;> fin_cases j <;> simp [Mat4.toMatrix, Mat4.sadd, Mat4.ofCols, Mat4.col, V4.get, V4.add, V4.set1]
  · intro i j
    fin_cases i <;> fin_cases j <;> simp [Mat4.toMatrix, Mat4.ssub, Mat4.ofCols, Mat4.col, V4.get, V4.sub, V4.set1]

/-- Multiplication composes transforms, is associative with identity `I`, and transposing reverses it. -/
theorem C69_compose (a b c : Mat4 K) (v : V4 K) :
    (a.mul b).mulV4 v = a.mulV4 (b.mulV4 v) ∧ (a.mul b).mul c = a.mul (b.mul c) ∧
    Mat4.I.mul a = a ∧ a.mul Mat4.I = a ∧ (a.mul b).transpose = b.transpose.mul a.transpose ∧ a.transpose.transpose = a := by
  refine ⟨?_, ?_, ?_, ?_, ?_, ?_⟩
  · have h : ((a.mul b).mulV4 v).toVec = (a.mulV4 (b.mulV4 v)).toVec := by
      rw [toVec_mulV4, toMatrix_mul, toVec_mulV4, toVec_mulV4, Matrix.mulVec_mulVec]
    have e : ∀ i : Fin 4, ((a.mul b).mulV4 v).get i = (a.mulV4 (b.mulV4 v)).get i := fun i => congrFun h i
    have e0 := e 0
    have e1 := e 1
    have e2 := e 2
    have e3 := e 3
    cases hx : (a.mul b).mulV4 v
    cases hy : a.mulV4 (b.mulV4 v)
    rw [hx, hy] at e0 e1 e2 e3
    simp [V4.get] at e0 e1 e2 e3
    simp [*]
  · apply toMatrix_inj; simp only [toMatrix_mul, Matrix.mul_assoc]
  · apply toMatrix_inj; rw [toMatrix_mul, toMatrix_I, Matrix.one_mul]
  · apply toMatrix_inj; rw [toMatrix_mul, toMatrix_I, Matrix.mul_one]
  · apply toMatrix_inj; simp only [toMatrix_transpose, toMatrix_mul, Matrix.transpose_mul]
  · apply toMatrix_inj; simp only [toMatrix_transpose, Matrix.transpose_transpose]

/-- Points and directions: `m * v` is the matrix applied to `(v, 1)`, `m.rotate(v)` to `(v, 0)`, the fourth coordinate
dropped. -/
theorem C69_points (a : Mat4 K) (v : V3 K) :
    a.mulV3 v = (a.mulV4 (.ofV3 v 1)).xyz ∧ a.rotV3 v = (a.mulV4 (.ofV3 v 0)).xyz := by
  constructor <;>
    simp [Mat4.mulV3, Mat4.rotV3, Mat4.mulV4, V4.ofV3, V4.xyz, V4.add, V4.mul, V4.set1]

/-- For affine `b` (last row `0 0 0 1`) products act on points one after the other. -/
theorem C69_affine (a b : Mat4 K) (hb : b.c0.w = 0 ∧ b.c1.w = 0 ∧ b.c2.w = 0 ∧ b.c3.w = 1) (v : V3 K) :
    (a.mul b).mulV3 v = a.mulV3 (b.mulV3 v) ∧ (a.mul b).rotV3 v = a.rotV3 (b.rotV3 v) := by
  obtain ⟨⟨_, _, _, b3⟩, ⟨_, _, _, b7⟩, ⟨_, _, _, b11⟩, ⟨_, _, _, b15⟩⟩ := b
  obtain ⟨rfl, rfl, rfl, rfl⟩ := hb
  constructor
  · simp [Mat4.mulV3, Mat4.mul, Mat4.ofCols, Mat4.col, V4.xyz, V4.add, V4.mul, V4.set1, V4.get]
    refine ⟨?_, ?_, ?_⟩ <;> ring
  · simp [Mat4.rotV3, Mat4.mul, Mat4.ofCols, Mat4.col, V4.xyz, V4.add, V4.mul, V4.set1, V4.get]
    refine ⟨?_, ?_, ?_⟩ <;> ring

example : (Mat4.mul (Mat4.translate ⟨1, 2, 3⟩) (Mat4.scale ⟨2, 2, 2⟩) : Mat4 ℚ).mulV3 ⟨1, 1, 1⟩ = ⟨3, 4, 5⟩ := by decide +kernel

/-! ## C70: `inverse` -/

/-- For every matrix with nonzero determinant, over any field, `inverse` computes the inverse matrix. -/
theorem C70_inverse (m : Mat4 K) (h : m.toMatrix.det ≠ 0) :
    m.mul m.inverse = Mat4.I ∧ m.inverse.mul m = Mat4.I ∧ m.inverse.toMatrix = m.toMatrix⁻¹ := by
  have h1 := mul_inverse m (by rw [← det_toMatrix]; exact h)
  have h2 : m.toMatrix * m.inverse.toMatrix = 1 := by rw [← toMatrix_mul, h1, toMatrix_I]
  refine ⟨h1, ?_, (Matrix.inv_eq_right_inv h2).symm⟩
  apply toMatrix_inj
  rw [toMatrix_mul, toMatrix_I]
  exact mul_eq_one_comm.1 h2

/-- In particular for every matrix that has an inverse at all. -/
theorem C70_invertible (m n : Mat4 K) (h : m.mul n = Mat4.I) : m.inverse = n := by
  have h2 : m.toMatrix * n.toMatrix = 1 := by rw [← toMatrix_mul, h, toMatrix_I]
  have hd : m.toMatrix.det ≠ 0 := by
    intro h0
    have := congrArg Matrix.det h2
    rw [Matrix.det_mul, h0, zero_mul, Matrix.det_one] at this
    exact zero_ne_one this
  apply toMatrix_inj
  rw [(C70_inverse m hd).2.2, Matrix.inv_eq_right_inv h2]

/-- A matrix without any zero entry. -/
def demoMat : Mat4 ℚ := ⟨⟨2, 1, 1, 1⟩, ⟨1, 3, 1, 2⟩, ⟨1, 1, 4, 3⟩, ⟨5, 1, 2, 7⟩⟩

example : (detV demoMat).x = 94 ∧ demoMat.mul demoMat.inverse = Mat4.I := by decide +kernel

/-! ## C82: `scale`, `translate`, `rotate` -/

/-- Scaling and translating. -/
theorem C82_scale_translate (s t v : V3 K) :
    (Mat4.scale s).mulV3 v = ⟨s.x * v.x, s.y * v.y, s.z * v.z⟩ ∧ (Mat4.translate t).mulV3 v = v.add t ∧
    (Mat4.translate t).rotV3 v = v ∧
    ∀ p : V4 K, ((Mat4.scale s).mulV4 p).w = p.w ∧ ((Mat4.translate t).mulV4 p).w = p.w := by
  refine ⟨?_, ?_, ?_, fun p => ⟨?_, ?_⟩⟩ <;>
    simp [Mat4.scale, Mat4.translate, Mat4.mulV3, Mat4.mulV4, Mat4.rotV3, Mat4.col, V4.xyz, V4.add, V4.mul, V4.set1, V3.add]

/-- `swap_x_z` exchanges the first and third coordinate. -/
theorem C82_swap_x_z (p : V4 K) : (Mat4.swap_x_z : Mat4 K).mulV4 p = ⟨p.z, p.y, p.x, p.w⟩ := by
  simp [Mat4.swap_x_z, Mat4.mulV4, Mat4.col, V4.add, V4.mul, V4.set1]

/-- `Mat4::rotate` turns each vector about the axis by the angle with cosine `c` and sine `s` (Rodrigues' formula, `a`
being the axis scaled to length one). -/
theorem C82_rotate (sqrt : K → K) (c s : K) (axis v : V3 K) :
    let a := axis.unit sqrt
    (Mat4.rotate sqrt c s axis).rotV3 v =
      ((v.smul c).add (a.smul ((1 - c) * a.dot v))).add ((a.cross v).smul s) := by
  dsimp only
  unfold Mat4.rotate
  generalize axis.unit sqrt = a
  simp only [V3.smul, V3.add, V3.dot, V3.cross, Mat4.rotV3, Mat4.col, V4.mul, V4.set1, V4.add, V4.xyz, V3.mk.injEq]
  refine ⟨?_, ?_, ?_⟩ <;> ring

/-- It is a rotation that leaves the axis alone, and turns about one axis add up. -/
theorem C82_rotation {sqrt : K → K} {c s c' s' : K} {axis : V3 K} (hcs : c * c + s * s = 1)
    (hs : sqrt (axis.dot axis) * sqrt (axis.dot axis) = axis.dot axis) (h : axis.dot axis ≠ 0) :
    IsRotation (Mat4.rotate sqrt c s axis).toMatrix ∧ (Mat4.rotate sqrt c s axis).rotV3 axis = axis ∧
    (Mat4.rotate sqrt c s axis).mul (Mat4.rotate sqrt c' s' axis) =
      Mat4.rotate sqrt (c * c' - s * s') (s * c' + c * s') axis :=
  ⟨rotate_rotation hcs hs h, rotate_axis hs h, rotate_add hs h⟩

/-- A quarter turn about the z axis takes x to y. -/
example : (Mat4.rotate (fun _ => 5) 0 1 ⟨0, 0, 5⟩ : Mat4 ℚ).rotV3 ⟨1, 0, 0⟩ = ⟨0, 1, 0⟩ := by decide +kernel

/-! ## C83: `ortho`

Full statement: `ortho(l, r, b, t, n, f)` takes the box of view space between the planes `x = l, r`, `y = b, t`,
`z = -n, -f` to the box `[-1, 1] × [-1, 1] × [0, 1]` (or `[-1, 1]` in depth). -/

/-- Right for `x` and `y`, and points stay points: the fourth coordinate is kept. `_partial`: the depth is wrong, see
`C83_false`. -/
theorem C83_ortho_partial {l r b t : K} (n f : K) (hx : r - l ≠ 0) (hy : t - b ≠ 0) (z : K) :
    (∀ v, ((Mat4.ortho l r b t n f).mulV4 v).w = v.w) ∧
    (∀ y, ((Mat4.ortho l r b t n f).mulV3 ⟨l, y, z⟩).x = -1 ∧ ((Mat4.ortho l r b t n f).mulV3 ⟨r, y, z⟩).x = 1) ∧
    (∀ x, ((Mat4.ortho l r b t n f).mulV3 ⟨x, b, z⟩).y = -1 ∧ ((Mat4.ortho l r b t n f).mulV3 ⟨x, t, z⟩).y = 1) := by
  refine ⟨fun v => by simp [Mat4.ortho, Mat4.mulV4, Mat4.col, V4.add, V4.mul, V4.set1],
    fun y => ⟨?_, ?_⟩, fun x => ⟨?_, ?_⟩⟩ <;>
    simp [Mat4.ortho, Mat4.mulV3, Mat4.col, V4.xyz, V4.add, V4.mul, V4.set1] <;> field_simp <;> ring

/-- The depth of the near plane is `n / (f - n)` and that of the far plane `(2 f - n) / (f - n)`. -/
theorem C83_depth (l r b t : K) {n f : K} (hz : f - n ≠ 0) (x y : K) :
    ((Mat4.ortho l r b t n f).mulV3 ⟨x, y, -n⟩).z = n / (f - n) ∧
    ((Mat4.ortho l r b t n f).mulV3 ⟨x, y, -f⟩).z = (2 * f - n) / (f - n) := by
  have hz' : n - f ≠ 0 := fun h => hz (by linear_combination -h)
  constructor <;>
    simp [Mat4.ortho, Mat4.mulV3, Mat4.col, V4.xyz, V4.add, V4.mul, V4.set1] <;> field_simp <;> ring

/-- The property is false: with planes at 1 and 3 the depths are 1/2 and 5/2. -/
theorem C83_false : ((Mat4.ortho 0 1 0 1 1 3 : Mat4 ℚ).mulV3 ⟨0, 0, -1⟩).z = 1 / 2 ∧
    ((Mat4.ortho 0 1 0 1 1 3 : Mat4 ℚ).mulV3 ⟨0, 0, -3⟩).z = 5 / 2 := by decide +kernel

/-! ## C84: `look_at` -/

/-- The eye goes to the origin, the point looked at to the negative z axis at its distance, `up` to the half plane above
it (no x component, and as y component the length of its part across the line of sight), and the matrix is a rotation
after a translation. `n` is the distance. -/
theorem C84_look_at {sqrt : K → K} {pos at_ up : V3 K} {n : K} (hn : n = sqrt ((at_.sub pos).dot (at_.sub pos)))
    (h1 : n * n = (at_.sub pos).dot (at_.sub pos)) (h1' : n ≠ 0)
    (h2 : let w := ((at_.sub pos).unit sqrt).cross up; sqrt (w.dot w) * sqrt (w.dot w) = w.dot w ∧ w.dot w ≠ 0) :
    let m := Mat4.look_at sqrt pos at_ up
    m.mulV3 pos = ⟨0, 0, 0⟩ ∧ m.mulV3 at_ = ⟨0, 0, -n⟩ ∧ (m.rotV3 up).x = 0 ∧
    (let w := ((at_.sub pos).unit sqrt).cross up; (m.rotV3 up).y = sqrt (w.dot w)) ∧
    ∃ r : Mat4 K, IsRotation r.toMatrix ∧ m = r.mul (Mat4.translate ⟨-pos.x, -pos.y, -pos.z⟩) := by
  have hd : (at_.sub pos).dot (at_.sub pos) ≠ 0 := by rw [← h1]; exact mul_ne_zero h1' h1'
  have hF := unit_unit (sqrt := sqrt) (v := at_.sub pos) (by rw [← hn]; exact h1) hd
  have hFe : ((at_.sub pos).unit sqrt).smul n = at_.sub pos := by
    unfold V3.unit V3.smul V3.sdiv
    rw [← hn]
    cases at_.sub pos
    simp only [V3.mk.injEq]
    refine ⟨?_, ?_, ?_⟩ <;> field_simp
  obtain ⟨hS, hSF, hSU⟩ := cross_unit hF h2.1 h2.2
  unfold Mat4.look_at
  dsimp only at h2 ⊢
  generalize (at_.sub pos).unit sqrt = F at h2 hF hFe hS hSF hSU ⊢
  have hSe : ((F.cross up).unit sqrt).smul (sqrt ((F.cross up).dot (F.cross up))) = F.cross up := by
    have hk : sqrt ((F.cross up).dot (F.cross up)) ≠ 0 := fun h => h2.2 (by rw [← h2.1, h, mul_zero])
    unfold V3.unit V3.smul V3.sdiv
    generalize sqrt ((F.cross up).dot (F.cross up)) = k at hk
    cases F.cross up
    simp only [V3.mk.injEq]
    refine ⟨?_, ?_, ?_⟩ <;> field_simp
  clear h2 hd hn h1
  generalize sqrt ((F.cross up).dot (F.cross up)) = k at hSe ⊢
  generalize (F.cross up).unit sqrt = S at hS hSF hSU hSe ⊢
  obtain ⟨fx, fy, fz⟩ := F
  obtain ⟨sx, sy, sz⟩ := S
  obtain ⟨px, py, pz⟩ := pos
  obtain ⟨ax, ay, az⟩ := at_
  obtain ⟨ux, uy, uz⟩ := up
  simp only [V3.sub, V3.smul, V3.cross, V3.mk.injEq] at hFe hF hS hSF hSU hSe
  obtain ⟨e1, e2, e3⟩ := hFe
  obtain ⟨k1, k2, k3⟩ := hSe
  refine ⟨?_, ?_, ?_, ?_, ⟨⟨sx, sy * fz - sz * fy, -fx, 0⟩, ⟨sy, sz * fx - sx * fz, -fy, 0⟩, ⟨sz, sx * fy - sy * fx, -fz, 0⟩, ⟨0, 0, 0, 1⟩⟩, ?_, ?_⟩
  · simp only [Mat4.mulV3, Mat4.col, V4.xyz, V4.add, V4.mul, V4.set1, V3.dot, V3.cross, V3.mk.injEq]
    refine ⟨?_, ?_, ?_⟩ <;> ring
  · simp only [Mat4.mulV3, Mat4.col, V4.xyz, V4.add, V4.mul, V4.set1, V3.dot, V3.cross, V3.mk.injEq]
    refine ⟨?_, ?_, ?_⟩
    · linear_combination n * hSF - sx * e1 - sy * e2 - sz * e3
    · linear_combination -(sy * fz - sz * fy) * e1 - (sz * fx - sx * fz) * e2 - (sx * fy - sy * fx) * e3
    · linear_combination -n * hF + fx * e1 + fy * e2 + fz * e3
  · simp only [Mat4.rotV3, Mat4.col, V4.xyz, V4.add, V4.mul, V4.set1]
    linear_combination hSU
  · simp only [Mat4.rotV3, Mat4.col, V4.xyz, V4.add, V4.mul, V4.set1, V3.cross]
    linear_combination k * hS - sx * k1 - sy * k2 - sz * k3
  · refine frame_rotation (x := ⟨_, _, _⟩) (y := ⟨_, _, _⟩) (z := ⟨_, _, _⟩) ?_ ?_ ?_ ?_
    · simp only; grind
    · simp only; grind
    · simp only; grind
    · simp only [V3.cross, V3.mk.injEq]
      refine ⟨?_, ?_, ?_⟩ <;> grind
  · simp only [Mat4.mul, Mat4.ofCols, Mat4.translate, Mat4.col, V4.get, V4.add, V4.mul, V4.set1, V3.dot, V3.cross, Mat4.mk.injEq, V4.mk.injEq]
    refine ⟨⟨?_, ?_, ?_, ?_⟩, ⟨?_, ?_, ?_, ?_⟩, ⟨?_, ?_, ?_, ?_⟩, ?_, ?_, ?_, ?_⟩ <;> ring

/-- Square roots of the few squares needed in examples. -/
def demoSqrt (x : ℚ) : ℚ := if x = 25 then 5 else if x = 16 / 25 then 4 / 5 else if x = 9 / 25 then 3 / 5 else if x = 4 then 2 else 1

example : (Mat4.look_at demoSqrt ⟨1, 0, 0⟩ ⟨1, 3, 4⟩ ⟨0, 1, 0⟩).mulV3 ⟨1, 3, 4⟩ = ⟨0, 0, -5⟩ := by decide +kernel

/-! ## C85: `rotate_y_to`, `rotate_z_to`

Full statement: for every direction, `rotate_y_to(dir)` is a rotation taking the y axis to `dir` scaled to length one,
and `rotate_z_to(dir)` is one taking the z axis there. -/

/-- Away from the y axis `rotate_y_to` is right. `_partial`: directions near `-y` and `rotate_z_to`, see `C85_false`,
`C85_reflection`, `C85_z`. -/
theorem C85_rotate_y_partial {sqrt : K → K} {up down : K → Bool} {d : V3 K}
    (h1 : sqrt (d.dot d) * sqrt (d.dot d) = d.dot d) (h1' : d.dot d ≠ 0)
    (h2 : let w := (d.unit sqrt).cross ⟨0, 1, 0⟩; sqrt (w.dot w) * sqrt (w.dot w) = w.dot w ∧ w.dot w ≠ 0)
    (hs1 : sqrt 1 = 1) (hu : up (d.unit sqrt).y = false) (hd : down (d.unit sqrt).y = false) :
    (Mat4.rotate_y_to sqrt up down d).rotV3 ⟨0, 1, 0⟩ = d.unit sqrt ∧
    IsRotation (Mat4.rotate_y_to sqrt up down d).toMatrix := by
  have hD := unit_unit h1 h1'
  obtain ⟨hX, hXD, hXY⟩ := cross_unit hD h2.1 h2.2
  unfold Mat4.rotate_y_to
  dsimp only
  generalize hD' : d.unit sqrt = D at *
  rw [hu, hd]
  generalize hX' : (D.cross ⟨0, 1, 0⟩).unit sqrt = X at *
  have hz : (X.cross D).unit sqrt = X.cross D := by
    have : (X.cross D).dot (X.cross D) = 1 := by
      simp only [V3.cross, V3.dot]
      grind
    unfold V3.unit
    rw [this, hs1]
    simp [V3.sdiv]
  rw [hz]
  refine ⟨?_, ?_⟩
  · simp [Mat4.rotV3, Mat4.col, V4.ofV3, V4.xyz, V4.add, V4.mul, V4.set1]
  · exact frame_rotation hX hD hXD rfl

/-- Near `-y` the result is a reflection, which is no rotation. -/
theorem C85_reflection {sqrt : K → K} {up down : K → Bool} {d : V3 K} (h2 : (2 : K) ≠ 0)
    (hu : up (d.unit sqrt).y = false) (hd : down (d.unit sqrt).y = true) :
    (Mat4.rotate_y_to sqrt up down d).toMatrix.det = -1 ∧ ¬ IsRotation (Mat4.rotate_y_to sqrt up down d).toMatrix := by
  have hdet : (Mat4.rotate_y_to sqrt up down d).toMatrix.det = -1 := by
    rw [det_toMatrix]
    simp [Mat4.rotate_y_to, hu, hd, detV, shuffle, swizzle, V4.get, V4.mul, V4.sub, V4.add, Mat2AdjMul, hadd]
  refine ⟨hdet, fun h => ?_⟩
  have := h.2.2
  rw [hdet] at this
  exact h2 (by linear_combination -this)

/-- `rotate_z_to` takes the z axis to the opposite direction, wherever `rotate_y_to` takes the y axis to `d`. -/
theorem C85_z {sqrt : K → K} {up down : K → Bool} {d : V3 K}
    (h : (Mat4.rotate_y_to sqrt up down d).rotV3 ⟨0, 1, 0⟩ = d.unit sqrt) :
    (Mat4.rotate_z_to sqrt up down d).rotV3 ⟨0, 0, 1⟩ = (d.unit sqrt).smul (-1) := by
  rw [← h]
  simp [Mat4.rotate_z_to, Mat4.rotV3, Mat4.col, V4.xyz, V4.add, V4.mul, V4.set1, V4.sub, V3.smul]

/-- The comparisons with `EPS_F` for exact numbers. -/
def nearUp (y : ℚ) : Bool := |y - 1| < 1 / 500000
def nearDown (y : ℚ) : Bool := |y + 1| < 1 / 500000

/-- The property is false: straight down gives a reflection, and for the direction `(3, 4, 0)` the z axis is taken to
`(-3/5, -4/5, 0)`. -/
theorem C85_false :
    (detV (Mat4.rotate_y_to demoSqrt nearUp nearDown ⟨0, -2, 0⟩)).x = -1 ∧
    (Mat4.rotate_z_to demoSqrt nearUp nearDown ⟨3, 4, 0⟩).rotV3 ⟨0, 0, 1⟩ = ⟨-3 / 5, -4 / 5, 0⟩ := by decide +kernel

example : (Mat4.rotate_y_to demoSqrt nearUp nearDown ⟨3, 4, 0⟩).rotV3 ⟨0, 1, 0⟩ = ⟨3 / 5, 4 / 5, 0⟩ ∧
    (detV (Mat4.rotate_y_to demoSqrt nearUp nearDown ⟨3, 4, 0⟩)).x = 1 := by decide +kernel

end Rpp.Props
