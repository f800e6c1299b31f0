import Mathlib.Data.Int.Log
import Mathlib.Data.Rat.Floor
import Mathlib.Algebra.Order.Field.Rat

/-!
# Model: degrees and radians

`rpp/math.h:10-12, 54-60`. A floating point number is the rational number it stands for. Simplified: the range of exponents is
unbounded, so that there is no overflow and no underflow.
-/

namespace Rpp.Angle

/-- The nearest multiple of one, the even one of two (IEEE 754). -/
def nearest (m : Rat) : Int :=
  let q := ⌊m⌋
  if m - q < 1 / 2 then q else if 1 / 2 < m - q then q + 1 else if q % 2 = 0 then q else q + 1

/-- `x` rounded to `p` bits: 24 for `f32`, 53 for `f64`. -/
def round (p : Nat) (x : Rat) : Rat :=
  if x = 0 then 0
  else
    let u : Rat := 2 ^ (Int.log 2 |x| - (p - 1))
    nearest (x / u) * u

/-- `PI32` (`rpp/math.h:11`). -/
def pi32 : Rat := round 24 (3141592653589793 / 10 ^ 15)

/-- `PI32 / 180.0f` and `180.0f / PI32`, computed in `f32` whatever `T` is (`rpp/math.h:56, 60`). -/
def perDegree : Rat := round 24 (pi32 / 180)
def perRadian : Rat := round 24 (180 / pi32)

/-- `radians<T>` (`rpp/math.h:54-57`) for a type `T` with `p` bits. -/
def radians (p : Nat) (v : Rat) : Rat := round p (v * perDegree)

/-- `degrees<T>` (`rpp/math.h:58-61`). -/
def degrees (p : Nat) (v : Rat) : Rat := round p (v * perRadian)

end Rpp.Angle
