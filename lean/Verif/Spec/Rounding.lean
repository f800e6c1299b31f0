import Mathlib.Algebra.Order.Field.Rat
import Mathlib.Algebra.Field.Rat

/-! # Specification: floating point numbers -/

namespace Rpp.Spec

/-- The numbers a binary format with `p` bits and unbounded exponents has. -/
def IsFloat (p : Nat) (x : Rat) : Prop := ∃ m e : Int, |m| < 2 ^ p ∧ x = m * 2 ^ e

end Rpp.Spec
