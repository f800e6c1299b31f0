import Verif.Spec.Range
import Verif.Spec.MapCost

/-!
# Specification: the gaps in which a request has room, and those of some classes
-/

namespace Rpp.Spec

/-- The request has room in the gap `(start, size)`. -/
def HasRoom (size align : Nat) (p : Nat × Nat) : Prop := ∃ o, align ∣ o ∧ p.1 ≤ o ∧ o + size ≤ p.1 + p.2

/-- How many of the gaps are of the classes from `lo` to `hi`. -/
def ofClasses (B bias lo hi : Nat) (G : List (Nat × Nat)) : Nat :=
  (G.filter fun p => lo ≤ sizeClass B bias p.2 ∧ sizeClass B bias p.2 ≤ hi).length

end Rpp.Spec
