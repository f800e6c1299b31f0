import Verif.Spec.BBox

/-!
# What a box can enclose
-/

namespace Rpp.VMath
open Rpp.Spec
variable {K : Type} [LinearOrder K]

/-- What can be enclosed. -/
inductive Item (K : Type) where
  | point (p : V3 K)
  | box (b : BBox K)

/-- The points of an item. -/
def Item.pts : Item K → V3 K → Prop
  | .point p, q => q = p
  | .box b, q => InBox b q

/-- `enclose` of an item. -/
def BBox.enclose (b : BBox K) : Item K → BBox K
  | .point p => b.enclosePoint p
  | .box c => b.encloseBox c

/-- Coordinates are within the limits of the number type. -/
def V3.fits (lo hi : K) (p : V3 K) : Prop := lo ≤ p.x ∧ p.x ≤ hi ∧ lo ≤ p.y ∧ p.y ≤ hi ∧ lo ≤ p.z ∧ p.z ≤ hi

/-- An item that has points and fits. -/
def Item.ok (lo hi : K) : Item K → Prop
  | .point p => p.fits lo hi
  | .box b => (b.min.x ≤ b.max.x ∧ b.min.y ≤ b.max.y ∧ b.min.z ≤ b.max.z) ∧ b.min.fits lo hi ∧ b.max.fits lo hi

end Rpp.VMath
