import Verif.Model.Atomic

/-!
# Specification: counting
-/

namespace Rpp.Spec.Atomic

open Rpp.Atomic (Op)

/-- What increments and decrements add up to. -/
def net : List (Nat × Op) → Int
  | [] => 0
  | (_, .incr) :: es => 1 + net es
  | (_, .decr) :: es => -1 + net es
  | _ :: es => net es

/-- `i64` -/
def InRange (x : Int) : Prop := -2 ^ 63 ≤ x ∧ x < 2 ^ 63

end Rpp.Spec.Atomic
