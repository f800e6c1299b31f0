import Verif.Model.Lerp

/-!
# Model: dot products in floating point arithmetic

`rpp/vmath.h:293-301, 537-546`: `Vect.dot` and `Vect.norm2` of `Verif.Model.Vect` with the rounding of `Verif.Model.Angle`, and here what
the compiler makes of the same loops if it fuses the product and the sum.
-/

namespace Rpp.Dot

open Rpp.Angle

/-- `for(...) r += x.data[i] * y.data[i]` with one rounding for each `i` (`rpp/vmath.h:541-544`, and 297-299 with `y = x`). -/
def dotFused (p : Nat) (x y : Nat → Rat) : Nat → Rat
  | 0 => 0
  | n + 1 => round p (dotFused p x y n + x n * y n)

end Rpp.Dot
