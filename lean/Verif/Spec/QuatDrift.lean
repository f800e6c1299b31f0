import Verif.Spec.Rounded

/-!
# Spec: lengths of quaternions and distances between them
-/

namespace Rpp.VMath

/-- The square of the length. -/
def size2 (q : Quat Rat) : Rat := q.x ^ 2 + q.y ^ 2 + q.z ^ 2 + q.w ^ 2

/-- The square of the distance. -/
def dist2 (q r : Quat Rat) : Rat := (q.x - r.x) ^ 2 + (q.y - r.y) ^ 2 + (q.z - r.z) ^ 2 + (q.w - r.w) ^ 2

/-- `1 + drift p` to the power of `k` is what `k` products can add to a length, relatively: twice four roundings each. -/
def drift (p : Nat) : Rat := 2 * err p 4

end Rpp.VMath
