/-!
# Model: functions that select among floating point numbers

`rpp/math.h:16-42, 127-130`, `rpp/impl/math.cpp:99-107`, `rpp/impl/simd.cpp:118-124`, `rpp/vmath.h:245-253, 502-522, 554-556, 777-799`. A
number is its bits: a sign and a magnitude, which for numbers that are not NaN is in the order of the absolute values
(IEEE 754 interchange formats). `I` is the magnitude of infinity, `0x7F800000` for `f32` and `0x7FF0000000000000` for
`f64`; larger magnitudes are NaN, and `I - 1` is the largest finite number. Nothing here is rounded.
-/

namespace Rpp.Flt

/-- The bits of a number. -/
structure F where
  neg : Bool
  mag : Nat
  deriving DecidableEq, Repr

variable (I : Nat)

/-- NaN. -/
def F.isNan (x : F) : Bool := decide (I < x.mag)

/-- The place of the number in the order; both zeros are at 0. -/
def F.key (x : F) : Int := if x.neg then -(x.mag : Int) else x.mag

/-- `<` and `>` are false if an operand is NaN. -/
def lt (x y : F) : Bool := !x.isNan I && !y.isNan I && decide (x.key < y.key)

/-- `==`. -/
def eq (x y : F) : Bool := !x.isNan I && !y.isNan I && decide (x.key = y.key)

/-- `Limits<f32>::max()` and `min()` (`rpp/limits.h:119-125`). -/
def top : F := ⟨false, I - 1⟩
def bottom : F := ⟨true, I - 1⟩

/-- `Math::min`, `Math::max` (`rpp/math.h:16-24`). -/
def fmin (a b : F) : F := if lt I a b then a else b
def fmax (a b : F) : F := if lt I b a then a else b

/-- The versions for lists (`rpp/math.h:26-42`). -/
def minList (l : List F) : F := l.foldl (fmin I) (top I)
def maxList (l : List F) : F := l.foldl (fmax I) (bottom I)

/-- `Math::clamp` of numbers (`rpp/math.h:127-130`). -/
def clamp (x start stop : F) : F := fmin I (fmax I x start) stop

/-- A component of `Math::clamp` of vectors without SIMD (`rpp/vmath.h:554-556`). -/
def clampV (x lo hi : F) : F := fmax I (fmin I x hi) lo

/-- `F32x4::min`, `F32x4::max` with clang (`rpp/impl/simd.cpp:118-124`): the elementwise builtins return the other operand if
one is NaN. With MSVC they are `_mm_min_ps`, `_mm_max_ps`, which select as `min` and `max` do. For two zeros of different sign the result is unspecified; here it is the second one. -/
def minSimd (a b : F) : F := if a.isNan I then b else if b.isNan I then a else fmin I a b
def maxSimd (a b : F) : F := if a.isNan I then b else if b.isNan I then a else fmax I a b

/-- `Math::clamp` of `Vec4`, which has SIMD (`rpp/vmath.h:39, 502-522, 554-556`). -/
def clampSimd (x lo hi : F) : F := maxSimd I (minSimd I x hi) lo

/-- A component of a box (`rpp/vmath.h:777-792, 790-797`): the empty box, and enclosing a point. -/
def box : F × F := (top I, bottom I)
def enclose (b : F × F) (p : F) : F × F := (fmin I b.1 p, fmax I b.2 p)

/-- Unary minus of a component without SIMD: the sign changes (`rpp/vmath.h:251`). -/
def neg (x : F) : F := ⟨!x.neg, x.mag⟩

/-- Unary minus of a component with SIMD (`rpp/vmath.h:249`): `0 - x`, which is `+0` for both zeros, and exact otherwise. -/
def negSimd (x : F) : F := if x.mag = 0 then ⟨false, 0⟩ else neg x

/-- `Math::sign` (`rpp/impl/math.cpp:102-104`), as an integer. -/
def sign (x : F) : Int := if eq I x ⟨false, 0⟩ then 0 else if lt I x ⟨false, 0⟩ then -1 else 1

end Rpp.Flt
