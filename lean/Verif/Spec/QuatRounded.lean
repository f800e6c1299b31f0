import Verif.Spec.Rounded

/-! # The terms of the matrix of a quaternion -/

namespace Rpp.VMath

/-- The magnitudes of the terms of the entry in row `i` and column `j` of the matrix of `q`, added. -/
def rotTerms (q : Quat Rat) : Fin 3 → Fin 3 → Rat
  | 0, 0 => 1 + 2 * q.y ^ 2 + 2 * q.z ^ 2
  | 1, 1 => 1 + 2 * q.x ^ 2 + 2 * q.z ^ 2
  | 2, 2 => 1 + 2 * q.x ^ 2 + 2 * q.y ^ 2
  | 0, 1 | 1, 0 => 2 * |q.x * q.y| + 2 * |q.z * q.w|
  | 0, 2 | 2, 0 => 2 * |q.x * q.z| + 2 * |q.y * q.w|
  | 1, 2 | 2, 1 => 2 * |q.y * q.z| + 2 * |q.x * q.w|

/-- All components are numbers of precision `p`. -/
def Quat.Floats {p : Nat} (q : Quat (Fl p)) : Prop :=
  Spec.IsFloat p q.x.val ∧ Spec.IsFloat p q.y.val ∧ Spec.IsFloat p q.z.val ∧ Spec.IsFloat p q.w.val

end Rpp.VMath
