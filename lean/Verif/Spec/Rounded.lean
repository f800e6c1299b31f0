import Verif.Model.Rounded
import Verif.Spec.Rounding
import Mathlib.Algebra.BigOperators.Fin

/-!
# Numbers meant by rounded matrices, and the error of some roundings
-/

namespace Rpp.VMath

/-- The relative error of `n` roundings, one after the other, in precision `p`. -/
def err (p n : Nat) : Rat := (1 + 1 / 2 ^ p) ^ n - 1

/-- The entry in row `i` and column `j`. -/
def entry {p : Nat} (m : Mat4 (Fl p)) (i j : Fin 4) : Rat := ((m.col j).get i).val

/-- The component `i`. -/
def comp {p : Nat} (v : V4 (Fl p)) (i : Fin 4) : Rat := (v.get i).val

/-- The component `i` of a `Vec3`. -/
def comp3 {p : Nat} (v : V3 (Fl p)) : Fin 3 → Rat
  | 0 => v.x.val
  | 1 => v.y.val
  | 2 => v.z.val

/-- The quaternion `w + x i + y j + z k` in exact numbers. -/
def exactQ {p : Nat} (q : Quat (Fl p)) : Quat Rat := ⟨q.x.val, q.y.val, q.z.val, q.w.val⟩

/-- The vector in exact numbers. -/
def exactV {p : Nat} (v : V3 (Fl p)) : V3 Rat := ⟨v.x.val, v.y.val, v.z.val⟩

/-- All entries are numbers of precision `p`. -/
def Mat4.Floats {p : Nat} (m : Mat4 (Fl p)) : Prop := ∀ i j, Spec.IsFloat p (entry m i j)

/-- The sum of the magnitudes of the terms of the determinant. -/
def terms : (n : Nat) → (Fin n → Fin n → Rat) → Rat
  | 0, _ => 1
  | n + 1, m => ∑ j, |m 0 j| * terms n fun a b => m a.succ (j.succAbove b)

end Rpp.VMath
