import Mathlib.Algebra.Order.Field.Rat
import Mathlib.Algebra.Field.Rat

/-! # Specification: square roots -/

namespace Rpp.Spec

/-- `sq` is the square root with a relative error of at most `d`; for a correctly rounded one of `p` bits, `d` is `1 / 2 ^ p`. -/
def IsSqrt (d : Rat) (sq : Rat → Rat) : Prop :=
  ∀ x, 0 ≤ x → 0 ≤ sq x ∧ (1 - d) ^ 2 * x ≤ sq x ^ 2 ∧ sq x ^ 2 ≤ (1 + d) ^ 2 * x

end Rpp.Spec
