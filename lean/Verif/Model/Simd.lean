import Verif.Model.Mat4
import Verif.Model.Float

/-!
# Model: the two implementations of `F32x4` and of the inverse of a matrix

`rpp/impl/simd.cpp`, `rpp/impl/vmath.cpp:12-163`. The first is compiled with MSVC and uses SSE intrinsics, the second with the
vector extensions of clang. The arithmetic of the elements is arbitrary (`Ar`): nothing is assumed of it, in particular not the laws
that rounding breaks. The intrinsics are as the Intel manual defines them.
-/

namespace Rpp.Simd

open Rpp.VMath

/-- Operations of the processor on elements. `abs` clears the sign bit. -/
structure Ar (T : Type) where
  zero : T
  one : T
  minusOne : T
  add : T → T → T
  sub : T → T → T
  mul : T → T → T
  div : T → T → T
  lt : T → T → Bool
  eq : T → T → Bool
  isNan : T → Bool
  floor : T → T
  ceil : T → T
  abs : T → T

variable {T : Type} (o : Ar T)

/-- Lane by lane. -/
def lanes (f : T → T → T) (a b : V4 T) : V4 T := ⟨f a.x b.x, f a.y b.y, f a.z b.z, f a.w b.w⟩

/-- Lane by lane with one operand. -/
def lanes1 (f : T → T) (a : V4 T) : V4 T := ⟨f a.x, f a.y, f a.z, f a.w⟩

/-! ## SSE intrinsics -/

/-- `_mm_set_ps`: the last argument goes to the first lane. -/
def mm_set_ps (e3 e2 e1 e0 : T) : V4 T := ⟨e0, e1, e2, e3⟩

/-- `_mm_setr_ps`: in order. -/
def mm_setr_ps (e3 e2 e1 e0 : T) : V4 T := ⟨e3, e2, e1, e0⟩

/-- `_mm_set1_ps`. -/
def mm_set1_ps (a : T) : V4 T := ⟨a, a, a, a⟩

/-- `_mm_min_ps` on a lane: the second operand unless the first is less. -/
def minps (a b : T) : T := if o.lt a b then a else b

/-- `_mm_max_ps` on a lane: the second operand unless the first is greater. -/
def maxps (a b : T) : T := if o.lt b a then a else b

/-- Lane `i` (0 to 3) that a mask of `_mm_shuffle_ps` selects. -/
def maskLane (mask i : Nat) : Nat := (mask >>> (2 * i)) &&& 3

/-- `_mm_shuffle_ps`: two lanes of the first operand, two of the second. -/
def mm_shuffle_ps (a b : V4 T) (mask : Nat) : V4 T :=
  ⟨a.get (maskLane mask 0), a.get (maskLane mask 1), b.get (maskLane mask 2), b.get (maskLane mask 3)⟩

/-- `_mm_shuffle_epi32`. -/
def mm_shuffle_epi32 (a : V4 T) (mask : Nat) : V4 T :=
  ⟨a.get (maskLane mask 0), a.get (maskLane mask 1), a.get (maskLane mask 2), a.get (maskLane mask 3)⟩

/-- `_mm_movelh_ps`: the lower halves. -/
def mm_movelh_ps (a b : V4 T) : V4 T := ⟨a.x, a.y, b.x, b.y⟩

/-- `_mm_movehl_ps`: the upper half of the second operand, then that of the first. -/
def mm_movehl_ps (a b : V4 T) : V4 T := ⟨b.z, b.w, a.z, a.w⟩

/-- `_mm_hadd_ps`. -/
def mm_hadd_ps (a b : V4 T) : V4 T := ⟨o.add a.x a.y, o.add a.z a.w, o.add b.x b.y, o.add b.z b.w⟩

/-- `_mm_cvtss_f32(_mm_dp_ps(a, b, 0xff))`: sums of pairs first. -/
def mm_dp_ps (a b : V4 T) : T :=
  let m := lanes o.mul a b
  o.add (o.add m.x m.y) (o.add m.z m.w)

/-! ## `F32x4` with MSVC (`rpp/impl/simd.cpp:13-82`) -/

namespace Sse

/-- `set` (`rpp/impl/simd.cpp:27-30`). -/
def set (x y z w : T) : V4 T := mm_set_ps w z y x
/-- `set1` (`rpp/impl/simd.cpp:23-25`). -/
def set1 (v : T) : V4 T := mm_set1_ps v
/-- `zero` (`rpp/impl/simd.cpp:32-34`). -/
def zero : V4 T := ⟨o.zero, o.zero, o.zero, o.zero⟩
/-- `one` (`rpp/impl/simd.cpp:36-38`). -/
def one : V4 T := set1 o.one
/-- `add`, `sub`, `mul`, `div` (`rpp/impl/simd.cpp:40-54`). -/
def add : V4 T → V4 T → V4 T := lanes o.add
def sub : V4 T → V4 T → V4 T := lanes o.sub
def mul : V4 T → V4 T → V4 T := lanes o.mul
def div : V4 T → V4 T → V4 T := lanes o.div
/-- `min`, `max` (`rpp/impl/simd.cpp:56-62`). -/
def minV : V4 T → V4 T → V4 T := lanes (minps o)
def maxV : V4 T → V4 T → V4 T := lanes (maxps o)
/-- `floor`, `ceil` (`rpp/impl/simd.cpp:64-70`). -/
def floor : V4 T → V4 T := lanes1 o.floor
def ceil : V4 T → V4 T := lanes1 o.ceil
/-- `abs` (`rpp/impl/simd.cpp:72-74`): the sign bit is masked out. -/
def abs : V4 T → V4 T := lanes1 o.abs
/-- `dp` (`rpp/impl/simd.cpp:76-78`). -/
def dp (a b : V4 T) : T := mm_dp_ps o a b
/-- `cmpeq_all` (`rpp/impl/simd.cpp:80-82`): the mask of the lanes that are equal is 15. -/
def cmpeq_all (a b : V4 T) : Bool :=
  (if o.eq a.x b.x then 1 else 0) + (if o.eq a.y b.y then 2 else 0) + (if o.eq a.z b.z then 4 else 0) +
    (if o.eq a.w b.w then 8 else 0) == 15

/-! ### `inverse` with MSVC (`rpp/impl/vmath.cpp:17-84`) -/

/-- `MakeShuffleMask` (`rpp/impl/vmath.cpp:17`). -/
def mask (x y z w : Nat) : Nat := x ||| (y <<< 2) ||| (z <<< 4) ||| (w <<< 6)

/-- `VecSwizzle`, `VecSwizzle1` (`rpp/impl/vmath.cpp:18-20`). -/
def vecSwizzle (v : V4 T) (x y z w : Nat) : V4 T := mm_shuffle_epi32 v (mask x y z w)
def vecSwizzle1 (v : V4 T) (x : Nat) : V4 T := mm_shuffle_epi32 v (mask x x x x)

/-- `VecShuffle`, `VecShuffle_0101`, `VecShuffle_2323` (`rpp/impl/vmath.cpp:23-25`). -/
def vecShuffle (a b : V4 T) (x y z w : Nat) : V4 T := mm_shuffle_ps a b (mask x y z w)
def vecShuffle_0101 (a b : V4 T) : V4 T := mm_movelh_ps a b
def vecShuffle_2323 (a b : V4 T) : V4 T := mm_movehl_ps b a

/-- `Mat2Mul` (`rpp/impl/vmath.cpp:27-30`). -/
def Mat2Mul (a b : V4 T) : V4 T :=
  add o (mul o a (vecSwizzle b 0 3 0 3)) (mul o (vecSwizzle a 1 0 3 2) (vecSwizzle b 2 1 2 1))

/-- `Mat2AdjMul` (`rpp/impl/vmath.cpp:32-35`). -/
def Mat2AdjMul (a b : V4 T) : V4 T :=
  sub o (mul o (vecSwizzle a 3 3 0 0) b) (mul o (vecSwizzle a 1 1 2 2) (vecSwizzle b 2 3 0 1))

/-- `Mat2MulAdj` (`rpp/impl/vmath.cpp:37-40`). -/
def Mat2MulAdj (a b : V4 T) : V4 T :=
  sub o (mul o a (vecSwizzle b 3 0 3 0)) (mul o (vecSwizzle a 1 0 3 2) (vecSwizzle b 2 1 2 1))

/-- `inverse` (`rpp/impl/vmath.cpp:42-84`). -/
def inverse (m : Mat4 T) : Mat4 T :=
  let A := vecShuffle_0101 m.c0 m.c1
  let B := vecShuffle_2323 m.c0 m.c1
  let C := vecShuffle_0101 m.c2 m.c3
  let D := vecShuffle_2323 m.c2 m.c3
  let detSub := sub o (mul o (vecShuffle m.c0 m.c2 0 2 0 2) (vecShuffle m.c1 m.c3 1 3 1 3))
    (mul o (vecShuffle m.c0 m.c2 1 3 1 3) (vecShuffle m.c1 m.c3 0 2 0 2))
  let detA := vecSwizzle1 detSub 0
  let detB := vecSwizzle1 detSub 1
  let detC := vecSwizzle1 detSub 2
  let detD := vecSwizzle1 detSub 3
  let D_C := Mat2AdjMul o D C
  let A_B := Mat2AdjMul o A B
  let X := sub o (mul o detD A) (Mat2Mul o B D_C)
  let W := sub o (mul o detA D) (Mat2Mul o C A_B)
  let detM := mul o detA detD
  let Y := sub o (mul o detB C) (Mat2MulAdj o D A_B)
  let Z := sub o (mul o detC B) (Mat2MulAdj o A D_C)
  let detM := add o detM (mul o detB detC)
  let tr := mul o A_B (vecSwizzle D_C 0 2 1 3)
  let tr := mm_hadd_ps o tr tr
  let tr := mm_hadd_ps o tr tr
  let detM := sub o detM tr
  let rDetM := div o (mm_setr_ps o.one o.minusOne o.minusOne o.one) detM
  let X := mul o X rDetM
  let Y := mul o Y rDetM
  let Z := mul o Z rDetM
  let W := mul o W rDetM
  ⟨vecShuffle X Y 3 1 3 1, vecShuffle X Y 2 0 2 0, vecShuffle Z W 3 1 3 1, vecShuffle Z W 2 0 2 0⟩

end Sse

/-! ## `F32x4` with clang (`rpp/impl/simd.cpp:86-152`) -/

namespace Ext

/-- `set` (`rpp/impl/simd.cpp:86-88`). -/
def set (x y z w : T) : V4 T := ⟨x, y, z, w⟩
/-- `set1` (`rpp/impl/simd.cpp:90-92`). -/
def set1 (v : T) : V4 T := ⟨v, v, v, v⟩
/-- `zero` (`rpp/impl/simd.cpp:94-96`). -/
def zero : V4 T := set1 o.zero
/-- `one` (`rpp/impl/simd.cpp:98-100`). -/
def one : V4 T := set1 o.one
/-- `add`, `sub`, `mul`, `div` (`rpp/impl/simd.cpp:102-116`). -/
def add : V4 T → V4 T → V4 T := lanes o.add
def sub : V4 T → V4 T → V4 T := lanes o.sub
def mul : V4 T → V4 T → V4 T := lanes o.mul
def div : V4 T → V4 T → V4 T := lanes o.div
/-- `min`, `max` (`rpp/impl/simd.cpp:118-124`): the other operand if one is NaN. For operands that are equal but not the same, the zeros,
the result is unspecified; here it is the first. -/
def minV : V4 T → V4 T → V4 T := lanes fun a b => if o.isNan a then b else if o.isNan b then a else if o.lt b a then b else a
def maxV : V4 T → V4 T → V4 T := lanes fun a b => if o.isNan a then b else if o.isNan b then a else if o.lt a b then b else a
/-- `floor`, `ceil`, `abs` (`rpp/impl/simd.cpp:126-136`). -/
def floor : V4 T → V4 T := lanes1 o.floor
def ceil : V4 T → V4 T := lanes1 o.ceil
def abs : V4 T → V4 T := lanes1 o.abs
/-- `dp` (`rpp/impl/simd.cpp:138-146`): the loop written out. -/
def dp (a b : V4 T) : T :=
  let m := mul o a b
  o.add (o.add (o.add (o.add o.zero m.x) m.y) m.z) m.w
/-- `cmpeq_all` (`rpp/impl/simd.cpp:148-152`). -/
def cmpeq_all (a b : V4 T) : Bool := o.eq a.x b.x && o.eq a.y b.y && o.eq a.z b.z && o.eq a.w b.w

/-- `Mat2Mul` (`rpp/impl/vmath.cpp:91-93`). -/
def Mat2Mul (a b : V4 T) : V4 T := add o (mul o a (swizzle b 0 3 0 3)) (mul o (swizzle a 1 0 3 2) (swizzle b 2 1 2 1))

/-- `Mat2AdjMul` (`rpp/impl/vmath.cpp:95-97`). -/
def Mat2AdjMul (a b : V4 T) : V4 T := sub o (mul o (swizzle a 3 3 0 0) b) (mul o (swizzle a 1 1 2 2) (swizzle b 2 3 0 1))

/-- `Mat2MulAdj` (`rpp/impl/vmath.cpp:99-101`). -/
def Mat2MulAdj (a b : V4 T) : V4 T := sub o (mul o a (swizzle b 3 0 3 0)) (mul o (swizzle a 1 0 3 2) (swizzle b 2 1 2 1))

/-- `hadd` (`rpp/impl/vmath.cpp:103-108`). -/
def hadd (v : V4 T) : V4 T :=
  let v0 := o.add v.z v.w
  let v1 := o.add v.x v.y
  ⟨v1, v0, v1, v0⟩

/-- `inverse` (`rpp/impl/vmath.cpp:110-161`). -/
def inverse (m : Mat4 T) : Mat4 T :=
  let A := shuffle m.c0 m.c1 0 1 4 5
  let B := shuffle m.c0 m.c1 2 3 6 7
  let C := shuffle m.c2 m.c3 0 1 4 5
  let D := shuffle m.c2 m.c3 2 3 6 7
  let E := shuffle m.c0 m.c2 0 2 4 6
  let F := shuffle m.c1 m.c3 1 3 5 7
  let G := shuffle m.c0 m.c2 1 3 5 7
  let H := shuffle m.c1 m.c3 0 2 4 6
  let detSub := sub o (mul o E F) (mul o G H)
  let detA := swizzle detSub 0 0 0 0
  let detB := swizzle detSub 1 1 1 1
  let detC := swizzle detSub 2 2 2 2
  let detD := swizzle detSub 3 3 3 3
  let D_C := Mat2AdjMul o D C
  let A_B := Mat2AdjMul o A B
  let X := sub o (mul o detD A) (Mat2Mul o B D_C)
  let W := sub o (mul o detA D) (Mat2Mul o C A_B)
  let detM := mul o detA detD
  let Y := sub o (mul o detB C) (Mat2MulAdj o D A_B)
  let Z := sub o (mul o detC B) (Mat2MulAdj o A D_C)
  let detM := add o detM (mul o detB detC)
  let tr := mul o A_B (swizzle D_C 0 2 1 3)
  let tr := hadd o tr
  let tr := hadd o tr
  let detM := sub o detM tr
  let rDetM := div o ⟨o.one, o.minusOne, o.minusOne, o.one⟩ detM
  let X := mul o X rDetM
  let Y := mul o Y rDetM
  let Z := mul o Z rDetM
  let W := mul o W rDetM
  ⟨shuffle X Y 3 1 7 5, shuffle X Y 2 0 6 4, shuffle Z W 3 1 7 5, shuffle Z W 2 0 6 4⟩

end Ext

/-- Exact arithmetic. -/
def exact (K : Type) [Field K] [LT K] [DecidableLT K] [DecidableEq K] (fl ce ab : K → K) : Ar K where
  zero := 0
  one := 1
  minusOne := -1
  add := (· + ·)
  sub := (· - ·)
  mul := (· * ·)
  div := (· / ·)
  lt a b := decide (a < b)
  eq a b := decide (a = b)
  isNan _ := false
  floor := fl
  ceil := ce
  abs := ab

/-- Rounding of a whole number to 24 bits, to nearest, ties to even, as IEEE 754 prescribes for `f32`. -/
def round24 (n : Nat) : Nat :=
  if n < 2 ^ 24 then n
  else
    let u := 2 ^ (Nat.log2 n - 23)
    let q := n / u
    let r := n % u
    if 2 * r < u then q * u else if u < 2 * r then (q + 1) * u else if q % 2 = 0 then q * u else (q + 1) * u

/-- Sums and products of whole numbers in `f32` (below `2 ^ 128`); `none` is NaN. Differences and quotients are left out. -/
def whole : Ar (Option Nat) where
  zero := some 0
  one := some 1
  minusOne := none
  add a b := match a, b with
    | some a, some b => some (round24 (a + b))
    | _, _ => none
  sub _ _ := none
  mul a b := match a, b with
    | some a, some b => some (round24 (a * b))
    | _, _ => none
  div _ _ := none
  lt a b := match a, b with
    | some a, some b => decide (a < b)
    | _, _ => false
  eq a b := match a, b with
    | some a, some b => decide (a = b)
    | _, _ => false
  isNan a := a.isNone
  floor a := a
  ceil a := a
  abs a := a

end Rpp.Simd
