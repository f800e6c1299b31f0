import Verif.Model.BBox

/-!
# Specification: boxes as sets of points
-/

namespace Rpp.Spec

open Rpp.VMath

variable {K : Type} [LinearOrder K]

/-- The points of a box. -/
def InBox (b : BBox K) (p : V3 K) : Prop :=
  b.min.x ≤ p.x ∧ p.x ≤ b.max.x ∧ b.min.y ≤ p.y ∧ p.y ≤ b.max.y ∧ b.min.z ≤ p.z ∧ p.z ≤ b.max.z

/-- `b` is the smallest box containing the points of `S`. -/
def Hull (b : BBox K) (S : V3 K → Prop) : Prop :=
  (∀ p, S p → InBox b p) ∧ ∀ c : BBox K, (∀ p, S p → InBox c p) → ∀ p, InBox b p → InBox c p

end Rpp.Spec

namespace Rpp.Spec

open Rpp.VMath

variable {K : Type} [Field K]

/-- The image of a point under a projective map: the first two coordinates divided by the fourth. -/
def screen (T : Mat4 K) (p : V3 K) : K × K :=
  let w := T.c0.w * p.x + T.c1.w * p.y + T.c2.w * p.z + T.c3.w
  ((T.c0.x * p.x + T.c1.x * p.y + T.c2.x * p.z + T.c3.x) / w, (T.c0.y * p.x + T.c1.y * p.y + T.c2.y * p.z + T.c3.y) / w)

/-- The image under an affine map. -/
def affine (T : Mat4 K) (p : V3 K) : V3 K :=
  ⟨T.c0.x * p.x + T.c1.x * p.y + T.c2.x * p.z + T.c3.x, T.c0.y * p.x + T.c1.y * p.y + T.c2.y * p.z + T.c3.y,
   T.c0.z * p.x + T.c1.z * p.y + T.c2.z * p.z + T.c3.z⟩

end Rpp.Spec
