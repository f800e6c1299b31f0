import Verif.Model.Angle
import Verif.Model.Vect

/-!
# Model: interpolation

`rpp/math.h:122-139`, `rpp/vmath.h:548-551`. A floating point number is the rational number it stands for, see `Verif.Model.Angle`;
there is no overflow and no underflow.
-/

namespace Rpp.Lerp

open Rpp.Angle

/-- `lerp<T>` (`rpp/math.h:122-125`) for a type `T` with `p` bits. With `fused` the compiler makes one instruction of the product and the
sum, which rounds once: it may (`-ffp-contract`), and does for ARM. -/
def lerp (fused : Bool) (p : Nat) (start stop t : Rat) : Rat :=
  let d := round p (stop - start)
  if fused then round p (start + d * t) else round p (start + round p (d * t))

/-- `Math::min` and `Math::max` (`rpp/math.h:16-24`). -/
def min' (a b : Rat) : Rat := if a < b then a else b
def max' (a b : Rat) : Rat := if a > b then a else b

/-- `clamp` (`rpp/math.h:127-130`). -/
def clamp (x start stop : Rat) : Rat := min' (max' x start) stop

/-- `clamp(num / den, 0.0f, 1.0f)` (`rpp/math.h:137`). If `den` is zero, it is `+0` (a difference of equal numbers); the quotient is then
`+inf`, `-inf`, or NaN for `0 / 0`, and clamped these are 1, 0 and 0, as `NaN > 0` is false. -/
def ramp (p : Nat) (num den : Rat) : Rat :=
  if den = 0 then (if num > 0 then 1 else 0) else clamp (round p (num / den)) 0 1

/-- `t * t * (3.0f - 2.0f * t)` (`rpp/math.h:138`). -/
def cubic (p : Nat) (t : Rat) : Rat := round p (round p (t * t) * round p (3 - round p (2 * t)))

/-- `smoothstep` (`rpp/math.h:136-139`). -/
def smoothstep (p : Nat) (e0 e1 x : Rat) : Rat := cubic p (ramp p (round p (x - e0)) (round p (e1 - e0)))

/-- `static_cast<i64>(x)` rounds towards zero; it is undefined if the result does not fit. -/
def toI64 (x : Rat) : Res Int :=
  let k := if x < 0 then ⌈x⌉ else ⌊x⌋
  if -2 ^ 63 ≤ k ∧ k < 2 ^ 63 then .ok k else .error .ub

/-- `frac` (`rpp/math.h:132-134`): the integer is converted back to `f32` and subtracted. -/
def frac (p : Nat) (x : Rat) : Res Rat := do
  let k ← toI64 x
  return round p (x - round p k)

/-- The arithmetic of a type with `p` bits for `Verif.Model.Vect`. Simplified: there is no NaN, so division by zero and square roots, which
`Math::lerp` does not use, are left undefined. -/
def ops (p : Nat) : Vect.Ops Rat where
  zero := 0
  add a b := .ok (round p (a + b))
  sub a b := .ok (round p (a - b))
  mul a b := .ok (round p (a * b))
  div a b := if b = 0 then .error .ub else .ok (round p (a / b))
  neg a := .ok (-a)
  abs a := .ok |a|
  floor a := .ok ⌊a⌋
  ceil a := .ok ⌈a⌉
  sqrt _ := .error .ub
  lt a b := decide (a < b)
  eq a b := decide (a = b)

end Rpp.Lerp
