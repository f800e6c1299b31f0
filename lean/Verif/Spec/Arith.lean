/-!
# Specification: elementary arithmetic notions
-/

namespace Rpp.Spec

/-- Powers of two. -/
def IsPow2 (n : Nat) : Prop := ∃ k, n = 2 ^ k

/-- `m` is the least multiple of `a` that is not below `x`. -/
def IsRoundUp (x a m : Nat) : Prop := a ∣ m ∧ x ≤ m ∧ ∀ m', a ∣ m' → x ≤ m' → m ≤ m'

/-- `m` is the greatest multiple of `a` that is not above `x`. -/
def IsRoundDown (x a m : Nat) : Prop := a ∣ m ∧ m ≤ x ∧ ∀ m', a ∣ m' → m' ≤ x → m' ≤ m

end Rpp.Spec
