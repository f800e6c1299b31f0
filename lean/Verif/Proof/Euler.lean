import Verif.Proof.Quat
import Mathlib.Algebra.Order.Field.Basic
import Mathlib.Algebra.Order.Ring.Abs
import Mathlib.Tactic.Linarith
import Mathlib.Tactic.Positivity

/-! # Helper lemmas: Euler angles -/

namespace Rpp.VMath

open Rpp.Spec

variable {K : Type} [Field K]

/-- The entries of a rotation given as a `Mat4` with frame `x`, `y`, `z`. -/
theorem frame_of_rotation {x y z : V3 K} (h : IsRotation (Mat4.mk (.ofV3 x 0) (.ofV3 y 0) (.ofV3 z 0) ⟨0, 0, 0, 1⟩ : Mat4 K).toMatrix) :
    x.x * x.x + x.y * x.y + x.z * x.z = 1 ∧ y.x * y.x + y.y * y.y + y.z * y.z = 1 ∧ x.x * y.x + x.y * y.y + x.z * y.z = 0 ∧
    z = x.cross y := by
  obtain ⟨h1, h2, h3⟩ := h
  rw [det_toMatrix] at h3
  have e : ∀ i j : Fin 4, _ := fun i j => congrFun (congrFun h1 i) j
  have e00 := e 0 0
  have e11 := e 1 1
  have e01 := e 0 1
  have e22 := e 2 2
  have e02 := e 0 2
  have e12 := e 1 2
  have g : ∀ i j : Fin 4, _ := fun i j => congrFun (congrFun h2 i) j
  have g00 := g 0 0
  have g11 := g 1 1
  have g22 := g 2 2
  have g01 := g 0 1
  have g02 := g 0 2
  have g12 := g 1 2
  clear e g h1 h2
  obtain ⟨x0, x1, x2⟩ := x
  obtain ⟨y0, y1, y2⟩ := y
  obtain ⟨z0, z1, z2⟩ := z
  rw [Matrix.mul_apply, Fin.sum_univ_four] at e00 e11 e01 e22 e02 e12 g00 g11 g22 g01 g02 g12
  simp [Mat4.toMatrix, Mat4.col, V4.get, V4.ofV3] at e00 e11 e01 e22 e02 e12 g00 g11 g22 g01 g02 g12
  simp [detV, shuffle, swizzle, V4.get, V4.ofV3, V4.mul, V4.sub, V4.add, Mat2AdjMul, hadd] at h3
  refine ⟨e00, e11, e01, ?_⟩
  simp only [V3.cross, V3.mk.injEq]
  refine ⟨?_, ?_, ?_⟩ <;> grind

/-- The matrix of three turns, about x by the angle with cosine `cx`, then y, then z. -/
theorem turns (sqrt : K → K) (h1 : sqrt 1 = 1) (cx sx cy sy cz sz : K) :
    ((Mat4.rotate sqrt cz sz ⟨0, 0, 1⟩).mul (Mat4.rotate sqrt cy sy ⟨0, 1, 0⟩)).mul (Mat4.rotate sqrt cx sx ⟨1, 0, 0⟩) =
      ⟨⟨cz * cy, sz * cy, -sy, 0⟩, ⟨cz * sy * sx - sz * cx, sz * sy * sx + cz * cx, cy * sx, 0⟩,
       ⟨cz * sy * cx + sz * sx, sz * sy * cx - cz * sx, cy * cx, 0⟩, ⟨0, 0, 0, 1⟩⟩ := by
  simp [Mat4.rotate, V3.unit, V3.sdiv, V3.dot, V3.smul, h1, Mat4.mul, Mat4.ofCols, Mat4.col, V4.get, V4.add, V4.mul, V4.set1]
  refine ⟨⟨?_, ?_⟩, ⟨?_, ?_, ?_⟩, ?_, ?_, ?_⟩ <;> ring

/-- `to_euler` when the first test fails. -/
theorem to_euler_cases {A : Type} {hypot : K → K → K} {atan2 : K → K → A} {close : K → K → Bool} {big : K → Bool}
    {flip : V3 A} {zero : A} {far : V3 A → V3 A → Bool} {x y z : V3 K}
    (h : ¬ (close x.x 1 = true ∧ close x.y 0 = true ∧ close y.x 0 = true ∧ close y.y (-1) = true ∧ close z.z 1 = true)) :
    let e := Mat4.to_euler hypot atan2 close big flip zero far ⟨.ofV3 x 0, .ofV3 y 0, .ofV3 z 0, ⟨0, 0, 0, 1⟩⟩
    (big (hypot x.x x.y) = true ∧ (e = ⟨atan2 y.z z.z, atan2 (-x.z) (hypot x.x x.y), atan2 x.y x.x⟩ ∨
       e = ⟨atan2 (-y.z) (-z.z), atan2 (-x.z) (-hypot x.x x.y), atan2 (-x.y) (-x.x)⟩)) ∨
    (big (hypot x.x x.y) = false ∧ e = ⟨atan2 (-z.y) y.y, atan2 (-x.z) (hypot x.x x.y), zero⟩) := by
  dsimp only
  unfold Mat4.to_euler
  dsimp only [V4.ofV3]
  rw [if_neg (by
    intro hc
    simp only [Bool.and_eq_true] at hc
    obtain ⟨⟨⟨⟨⟨⟨⟨⟨⟨⟨⟨a0, a1⟩, _⟩, _⟩, a4⟩, a5⟩, _⟩, _⟩, _⟩, _⟩, a10⟩, _⟩ := hc
    exact h ⟨a0, a1, a4, a5, a10⟩)]
  cases hb : big (hypot x.x x.y) with
  | true =>
    left
    refine ⟨rfl, ?_⟩
    simp only [if_true]
    split
    · exact .inr rfl
    · exact .inl rfl
  | false =>
    right
    refine ⟨rfl, ?_⟩
    simp

variable [LinearOrder K] [IsStrictOrderedRing K]

/-- No rotation is near the matrix that `to_euler` treats separately. -/
theorem not_singular {x y z : V3 K} {ε : K} (hε : ε ≤ 1 / 4) (hz : z = x.cross y)
    (h1 : |x.x - 1| < ε) (h2 : |x.y - 0| < ε) (h3 : |y.x - 0| < ε) (h4 : |y.y - -1| < ε) (h5 : |z.z - 1| < ε) : False := by
  subst hz
  simp only [V3.cross] at h5
  rw [abs_lt] at h1 h2 h3 h4 h5
  have a1 : 3 / 4 < x.x := by linarith [h1.1]
  have a2 : y.y < -(3 / 4) := by linarith [h4.2]
  have p1 : x.x * y.y < -(9 / 16) := by nlinarith
  have p2 : -(1 / 16) < x.y * y.x := by
    have : |x.y * y.x| < 1 / 16 := by
      rw [abs_mul]
      have b1 : |x.y| < 1 / 4 := by rw [abs_lt]; constructor <;> linarith [h2.1, h2.2]
      have b2 : |y.x| < 1 / 4 := by rw [abs_lt]; constructor <;> linarith [h3.1, h3.2]
      nlinarith [abs_nonneg x.y, abs_nonneg y.x]
    linarith [(abs_lt.1 this).1]
  linarith [h5.1]

end Rpp.VMath
