import Verif.Model.FloatText
import Verif.Spec.Rounding

/-!
# Specification: decimal numbers
-/

namespace Rpp.FloatText.Spec

/-- Decimal digits. -/
def Digits (ds : List Byte) : Prop := ∀ b ∈ ds, 48#8 ≤ b ∧ b ≤ 57#8

/-- The number that digits stand for. -/
def whole (ds : List Byte) : Nat := ds.foldl (fun a d => 10 * a + (d.toNat - 48)) 0

/-- The number that digits before and after a point stand for. -/
def number (ds fs : List Byte) : Rat := whole ds + whole fs / 10 ^ fs.length

/-- The finite numbers of type `f32`. -/
def IsF32 (x : Rat) : Prop := (∃ m e : Int, |m| < 2 ^ 24 ∧ -149 ≤ e ∧ x = m * 2 ^ e) ∧ |x| < 2 ^ 128

/-- The multiple of a millionth next to `x`, the even one of two. -/
def Millionths (x : Rat) (n : Int) : Prop :=
  |x * 10 ^ 6 - n| < 1 / 2 ∨ (|x * 10 ^ 6 - n| = 1 / 2 ∧ n % 2 = 0)

end Rpp.FloatText.Spec
