import Verif.Model.BBoxRounded
import Verif.Spec.Rounded

/-!
# Specification: points of rounded boxes and their images
-/

namespace Rpp.Spec

open Rpp.VMath

variable {p : Nat}

/-- The point with exact coordinates `x` is in the box. -/
def Holds (b : BBox (Fl p)) (x : Fin 3 → Rat) : Prop := ∀ i, comp3 b.min i ≤ x i ∧ x i ≤ comp3 b.max i

/-- The coordinates are numbers of precision `p`. -/
def FloatBox (b : BBox (Fl p)) : Prop := ∀ i, IsFloat p (comp3 b.min i) ∧ IsFloat p (comp3 b.max i)

/-- Coordinate `i` of the image of a point in exact numbers. -/
def image (T : Mat4 (Fl p)) (x : Fin 3 → Rat) (i : Fin 3) : Rat :=
  ∑ j : Fin 3, entry T i.castSucc j.castSucc * x j + entry T i.castSucc 3

/-- The largest sum of the magnitudes of the terms of `image` over the points of the box. -/
def reach (b : BBox (Fl p)) (T : Mat4 (Fl p)) (i : Fin 3) : Rat :=
  ∑ j : Fin 3, |entry T i.castSucc j.castSucc| * max |comp3 b.min j| |comp3 b.max j| + |entry T i.castSucc 3|

/-- The image computed with rounding from the left, beginning with the translation. -/
def fromLeft (T : Mat4 (Fl p)) (v : V3 (Fl p)) : V3 (Fl p) :=
  ⟨T.c3.x + T.c0.x * v.x + T.c1.x * v.y + T.c2.x * v.z, T.c3.y + T.c0.y * v.x + T.c1.y * v.y + T.c2.y * v.z,
   T.c3.z + T.c0.z * v.x + T.c1.z * v.y + T.c2.z * v.z⟩

/-- The area of the six sides in exact numbers. -/
def area (b : BBox (Fl p)) : Rat :=
  let e := fun i => comp3 b.max i - comp3 b.min i
  2 * (e 0 * e 1) + 2 * (e 1 * e 2) + 2 * (e 2 * e 0)

end Rpp.Spec
