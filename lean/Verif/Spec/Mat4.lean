import Mathlib.LinearAlgebra.Matrix.NonsingularInverse

/-!
# Specification: linear maps as matrices

`Matrix (Fin 4) (Fin 4) K` with Mathlib's product, inverse, transpose and determinant is what a `Mat4` is meant to be;
entry `(i, j)` is row `i` of column `j`.
-/

namespace Rpp.Spec

/-- Homogeneous coordinates of a point (`w = 1`) or a direction (`w = 0`). -/
def hom {K : Type} (x y z w : K) : Fin 4 → K := ![x, y, z, w]

/-- A rotation: orthogonal with determinant one. -/
def IsRotation {K : Type} [CommRing K] {n : Nat} (M : Matrix (Fin n) (Fin n) K) : Prop :=
  M.transpose * M = 1 ∧ M * M.transpose = 1 ∧ M.det = 1

end Rpp.Spec
