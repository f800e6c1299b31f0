import Verif.Model.Angle
import Verif.Model.Vect

/-!
# Model: floating point numbers with a bounded range

`f32` and `f64` as they are (IEEE 754), for `Verif.Model.Vect`: results may be infinite, not a number, or denormal. Simplified: the
sign of zero is left out; a zero that something is divided by counts as `+0`, as the norm of a vector is.
-/

namespace Rpp.Ieee

open Rpp.Angle

/-- The bits of the significand, and the exponents: numbers below `2 ^ emin` are denormal, those from `2 ^ emax` on are infinite. -/
structure Format where
  p : Nat
  emin : Int
  emax : Int

/-- `f32` and `f64` (`rpp/base.h:82-83`). -/
def f32 : Format := ⟨24, -126, 128⟩
def f64 : Format := ⟨53, -1022, 1024⟩

/-- Numbers; `inf true` is `-inf`. -/
inductive F where
  | fin (x : Rat)
  | inf (neg : Bool)
  | nan
deriving DecidableEq

/-- The nearest number of the format. -/
def rnd (f : Format) (x : Rat) : F :=
  let u : Rat := 2 ^ (f.emin - (f.p - 1))
  let r : Rat := if |x| < 2 ^ f.emin then nearest (x / u) * u else round f.p x
  if 2 ^ f.emax ≤ |r| then .inf (decide (x < 0)) else .fin r

/-- Sums. -/
def add (f : Format) : F → F → F
  | .fin a, .fin b => rnd f (a + b)
  | .inf a, .inf b => if a = b then .inf a else .nan
  | .inf a, .fin _ => .inf a
  | .fin _, .inf b => .inf b
  | _, _ => .nan

/-- The opposite. -/
def neg : F → F
  | .fin a => .fin (-a)
  | .inf a => .inf (!a)
  | .nan => .nan

/-- Products. -/
def mul (f : Format) : F → F → F
  | .fin a, .fin b => rnd f (a * b)
  | .inf a, .inf b => .inf (a != b)
  | .inf a, .fin b => if b = 0 then .nan else .inf (a != decide (b < 0))
  | .fin a, .inf b => if a = 0 then .nan else .inf (b != decide (a < 0))
  | _, _ => .nan

/-- Quotients. -/
def div (f : Format) : F → F → F
  | .fin a, .fin b => if b = 0 then (if a = 0 then .nan else .inf (decide (a < 0))) else rnd f (a / b)
  | .inf a, .fin b => .inf (a != decide (b < 0))
  | .fin _, .inf _ => .fin 0
  | _, _ => .nan

/-- `::sqrtf` and `::sqrt` (`rpp/impl/math.cpp:96-101`), by what they give for a number that is not negative. -/
def sqrt (sq : Rat → Rat) : F → F
  | .fin a => if a < 0 then .nan else .fin (sq a)
  | .inf false => .inf false
  | _ => .nan

/-- The magnitude. -/
def abs' : F → F
  | .fin a => .fin |a|
  | .inf _ => .inf false
  | .nan => .nan

/-- Comparison: false if one of the two is not a number. -/
def lt : F → F → Bool
  | .fin a, .fin b => a < b
  | .inf a, .inf b => a && !b
  | .inf a, .fin _ => a
  | .fin _, .inf b => !b
  | _, _ => false

/-- The arithmetic of a format for `Verif.Model.Vect`. -/
def ops (f : Format) (sq : Rat → Rat) : Vect.Ops F where
  zero := .fin 0
  add a b := .ok (add f a b)
  sub a b := .ok (add f a (neg b))
  mul a b := .ok (mul f a b)
  div a b := .ok (div f a b)
  neg a := .ok (neg a)
  abs a := .ok (abs' a)
  floor | .fin a => .ok (.fin ⌊a⌋) | x => .ok x
  ceil | .fin a => .ok (.fin ⌈a⌉) | x => .ok x
  sqrt a := .ok (sqrt sq a)
  lt := lt
  eq a b := decide (a = b ∧ a ≠ .nan)

end Rpp.Ieee
