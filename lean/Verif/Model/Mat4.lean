import Mathlib.Algebra.Field.Defs

/-!
# Model: `Vec3`, `Vec4`, `Mat4` in exact arithmetic

`rpp/vmath.h:480-640`, `rpp/impl/vmath.cpp:89-375`, `rpp/simd.h`, `rpp/impl/simd.cpp:84-154` (the clang version of both).
The scalars are an arbitrary field instead of `f32`: rounding, overflow and NaN are left out. (Sums and products ask for less, and
`Model/Rounded` uses them with rounded numbers.) Square roots, sines and
cosines are arguments (a function or a value).
-/

namespace Rpp.VMath

/-- `Vec3` (`rpp/vmath.h:366-373, 481`). -/
structure V3 (K : Type) where
  x : K
  y : K
  z : K
deriving DecidableEq

/-- `Vec4` and `F32x4` (`rpp/vmath.h:429-437, 482`; the same storage). -/
structure V4 (K : Type) where
  x : K
  y : K
  z : K
  w : K
deriving DecidableEq

variable {K : Type}

/-- `data[i]`. -/
def V4.get (v : V4 K) : Nat → K
  | 0 => v.x
  | 1 => v.y
  | 2 => v.z
  | _ => v.w

/-- `xyz()` (`rpp/vmath.h:464-466`). -/
def V4.xyz (v : V4 K) : V3 K := ⟨v.x, v.y, v.z⟩

/-- Vector from three components and one (`rpp/vmath.h:58-63`). -/
def V4.ofV3 (v : V3 K) (w : K) : V4 K := ⟨v.x, v.y, v.z, w⟩

/-- `__builtin_shufflevector(a, b, i, j, k, l)`: lanes 0–3 are `a`'s, 4–7 are `b`'s. -/
def shuffle (a b : V4 K) (i j k l : Nat) : V4 K :=
  let pick (n : Nat) : K := if n < 4 then a.get n else b.get (n - 4)
  ⟨pick i, pick j, pick k, pick l⟩

/-- A swizzle such as `v.xwxw`. -/
def swizzle (v : V4 K) (i j k l : Nat) : V4 K := ⟨v.get i, v.get j, v.get k, v.get l⟩

section
variable [Field K]

/-- `F32x4` operations on lanes (`rpp/impl/simd.cpp:90-116`). -/
def V4.set1 {K : Type} (s : K) : V4 K := ⟨s, s, s, s⟩
def V4.add {K : Type} [Add K] (a b : V4 K) : V4 K := ⟨a.x + b.x, a.y + b.y, a.z + b.z, a.w + b.w⟩
def V4.sub {K : Type} [Sub K] (a b : V4 K) : V4 K := ⟨a.x - b.x, a.y - b.y, a.z - b.z, a.w - b.w⟩
def V4.mul {K : Type} [Mul K] (a b : V4 K) : V4 K := ⟨a.x * b.x, a.y * b.y, a.z * b.z, a.w * b.w⟩
def V4.div (a b : V4 K) : V4 K := ⟨a.x / b.x, a.y / b.y, a.z / b.z, a.w / b.w⟩

/-- Component-wise operations of `Vec3` (`rpp/vmath.h:142-214`, loops written out). -/
def V3.add {K : Type} [Add K] (a b : V3 K) : V3 K := ⟨a.x + b.x, a.y + b.y, a.z + b.z⟩
def V3.sub {K : Type} [Sub K] (a b : V3 K) : V3 K := ⟨a.x - b.x, a.y - b.y, a.z - b.z⟩
def V3.smul {K : Type} [Mul K] (a : V3 K) (s : K) : V3 K := ⟨a.x * s, a.y * s, a.z * s⟩
def V3.sdiv (a : V3 K) (s : K) : V3 K := ⟨a.x / s, a.y / s, a.z / s⟩

/-- `dot` (`rpp/vmath.h:537-546`). -/
def V3.dot (a b : V3 K) : K := 0 + a.x * b.x + a.y * b.y + a.z * b.z

/-- `cross` (`rpp/vmath.h:498-500`). -/
def V3.cross {K : Type} [Mul K] [Sub K] (l r : V3 K) : V3 K := ⟨l.y * r.z - l.z * r.y, l.z * r.x - l.x * r.z, l.x * r.y - l.y * r.x⟩

/-- `unit`, also `normalize` (`rpp/vmath.h:255-276, 293-301, 337-341, 558-561`). -/
def V3.unit (sqrt : K → K) (v : V3 K) : V3 K := v.sdiv (sqrt (v.dot v))

/-- `Mat4`: four columns (`rpp/vmath.h:563-569`). -/
structure Mat4 (K : Type) where
  c0 : V4 K
  c1 : V4 K
  c2 : V4 K
  c3 : V4 K
deriving DecidableEq

/-- `columns[i]`, `pack[i]`, `m[i]`. -/
def Mat4.col {K : Type} (m : Mat4 K) : Nat → V4 K
  | 0 => m.c0
  | 1 => m.c1
  | 2 => m.c2
  | _ => m.c3

/-- The loop `for(i = 0; i < 4; i++) ret.pack[i] = f(i)`. -/
def Mat4.ofCols {K : Type} (f : Nat → V4 K) : Mat4 K := ⟨f 0, f 1, f 2, f 3⟩

/-- `Mat4::I` and the default constructor (`rpp/impl/vmath.cpp:167-168`, `rpp/vmath.h:571-574`). -/
def Mat4.I {K : Type} [Zero K] [One K] : Mat4 K := ⟨⟨1, 0, 0, 0⟩, ⟨0, 1, 0, 0⟩, ⟨0, 0, 1, 0⟩, ⟨0, 0, 0, 1⟩⟩

/-- `Mat4::zero` (`rpp/impl/vmath.cpp:169-170`). -/
def Mat4.zero : Mat4 K := ⟨⟨0, 0, 0, 0⟩, ⟨0, 0, 0, 0⟩, ⟨0, 0, 0, 0⟩, ⟨0, 0, 0, 0⟩⟩

/-- `Mat4::swap_x_z` (`rpp/impl/vmath.cpp:171-172`). -/
def Mat4.swap_x_z : Mat4 K := ⟨⟨0, 0, 1, 0⟩, ⟨0, 1, 0, 0⟩, ⟨1, 0, 0, 0⟩, ⟨0, 0, 0, 1⟩⟩

/-- `transpose`, `T` (`rpp/impl/vmath.cpp:279-284, 377-379`). -/
def Mat4.transpose {K : Type} (m : Mat4 K) : Mat4 K :=
  .ofCols fun i => ⟨(m.col 0).get i, (m.col 1).get i, (m.col 2).get i, (m.col 3).get i⟩

/-- `operator+`, `operator-` with a matrix (`rpp/impl/vmath.cpp:296-306`). -/
def Mat4.add (a m : Mat4 K) : Mat4 K := .ofCols fun i => (a.col i).add (m.col i)
def Mat4.sub (a m : Mat4 K) : Mat4 K := .ofCols fun i => (a.col i).sub (m.col i)

/-- `operator*` with a matrix (`rpp/impl/vmath.cpp:308-317`). -/
def Mat4.mul {K : Type} [Add K] [Mul K] (a m : Mat4 K) : Mat4 K := .ofCols fun i =>
  (((V4.set1 ((m.col i).get 0)).mul (a.col 0)).add ((V4.set1 ((m.col i).get 1)).mul (a.col 1))).add
    (((V4.set1 ((m.col i).get 2)).mul (a.col 2)).add ((V4.set1 ((m.col i).get 3)).mul (a.col 3)))

/-- `operator+`, `-`, `*`, `/` with a scalar (`rpp/impl/vmath.cpp:319-345`). -/
def Mat4.sadd (a : Mat4 K) (s : K) : Mat4 K := .ofCols fun i => (a.col i).add (.set1 s)
def Mat4.ssub (a : Mat4 K) (s : K) : Mat4 K := .ofCols fun i => (a.col i).sub (.set1 s)
def Mat4.smul (a : Mat4 K) (s : K) : Mat4 K := .ofCols fun i => (a.col i).mul (.set1 s)
def Mat4.sdiv (a : Mat4 K) (s : K) : Mat4 K := .ofCols fun i => (a.col i).div (.set1 s)

/-- `operator*(Vec4)` (`rpp/impl/vmath.cpp:357-361`). -/
def Mat4.mulV4 {K : Type} [Add K] [Mul K] (a : Mat4 K) (v : V4 K) : V4 K :=
  (((a.col 0).mul (.set1 v.x)).add ((a.col 1).mul (.set1 v.y))).add
    (((a.col 2).mul (.set1 v.z)).add ((a.col 3).mul (.set1 v.w)))

/-- `operator*(Vec3)` (`rpp/impl/vmath.cpp:363-368`). -/
def Mat4.mulV3 {K : Type} [Add K] [Mul K] (a : Mat4 K) (v : V3 K) : V3 K :=
  ((((a.col 0).mul (.set1 v.x)).add ((a.col 1).mul (.set1 v.y))).add
    (((a.col 2).mul (.set1 v.z)).add (a.col 3))).xyz

/-- `Mat4::rotate(Vec3) const` (`rpp/impl/vmath.cpp:370-375`). -/
def Mat4.rotV3 {K : Type} [Add K] [Mul K] (a : Mat4 K) (v : V3 K) : V3 K :=
  ((((a.col 0).mul (.set1 v.x)).add ((a.col 1).mul (.set1 v.y))).add ((a.col 2).mul (.set1 v.z))).xyz

/-! ### `inverse` (`rpp/impl/vmath.cpp:91-161`) -/

/-- `Mat2Mul` (`rpp/impl/vmath.cpp:91-93`): `vec1 * vec2.xwxw + vec1.yxwz * vec2.zyzy`. -/
def Mat2Mul (a b : V4 K) : V4 K := (a.mul (swizzle b 0 3 0 3)).add ((swizzle a 1 0 3 2).mul (swizzle b 2 1 2 1))

/-- `Mat2AdjMul` (`rpp/impl/vmath.cpp:95-97`): `vec1.wwxx * vec2 - vec1.yyzz * vec2.zwxy`. -/
def Mat2AdjMul {K : Type} [Sub K] [Mul K] (a b : V4 K) : V4 K := ((swizzle a 3 3 0 0).mul b).sub ((swizzle a 1 1 2 2).mul (swizzle b 2 3 0 1))

/-- `Mat2MulAdj` (`rpp/impl/vmath.cpp:99-101`): `vec1 * vec2.wxwx - vec1.yxwz * vec2.zyzy`. -/
def Mat2MulAdj (a b : V4 K) : V4 K := (a.mul (swizzle b 3 0 3 0)).sub ((swizzle a 1 0 3 2).mul (swizzle b 2 1 2 1))

/-- `hadd` (`rpp/impl/vmath.cpp:103-108`). -/
def hadd {K : Type} [Add K] (v : V4 K) : V4 K := ⟨v.x + v.y, v.z + v.w, v.x + v.y, v.z + v.w⟩

/-- The vector `detM` (`rpp/impl/vmath.cpp:116-145`). -/
def detV {K : Type} [Add K] [Sub K] [Mul K] (m : Mat4 K) : V4 K :=
  let A := shuffle m.c0 m.c1 0 1 4 5
  let B := shuffle m.c0 m.c1 2 3 6 7
  let C := shuffle m.c2 m.c3 0 1 4 5
  let D := shuffle m.c2 m.c3 2 3 6 7
  let E := shuffle m.c0 m.c2 0 2 4 6
  let F := shuffle m.c1 m.c3 1 3 5 7
  let G := shuffle m.c0 m.c2 1 3 5 7
  let H := shuffle m.c1 m.c3 0 2 4 6
  let detSub := (E.mul F).sub (G.mul H)
  let detA := swizzle detSub 0 0 0 0
  let detB := swizzle detSub 1 1 1 1
  let detC := swizzle detSub 2 2 2 2
  let detD := swizzle detSub 3 3 3 3
  let D_C := Mat2AdjMul D C
  let A_B := Mat2AdjMul A B
  let detM := (detA.mul detD).add (detB.mul detC)
  let tr := hadd (hadd (A_B.mul (swizzle D_C 0 2 1 3)))
  detM.sub tr

/-- `detail::inverse` (`rpp/impl/vmath.cpp:110-161`). -/
def Mat4.inverse (m : Mat4 K) : Mat4 K :=
  let A := shuffle m.c0 m.c1 0 1 4 5
  let B := shuffle m.c0 m.c1 2 3 6 7
  let C := shuffle m.c2 m.c3 0 1 4 5
  let D := shuffle m.c2 m.c3 2 3 6 7
  let E := shuffle m.c0 m.c2 0 2 4 6
  let F := shuffle m.c1 m.c3 1 3 5 7
  let G := shuffle m.c0 m.c2 1 3 5 7
  let H := shuffle m.c1 m.c3 0 2 4 6
  let detSub := (E.mul F).sub (G.mul H)
  let detA := swizzle detSub 0 0 0 0
  let detB := swizzle detSub 1 1 1 1
  let detC := swizzle detSub 2 2 2 2
  let detD := swizzle detSub 3 3 3 3
  let D_C := Mat2AdjMul D C
  let A_B := Mat2AdjMul A B
  let X := (detD.mul A).sub (Mat2Mul B D_C)
  let W := (detA.mul D).sub (Mat2Mul C A_B)
  let Y := (detB.mul C).sub (Mat2MulAdj D A_B)
  let Z := (detC.mul B).sub (Mat2MulAdj A D_C)
  let rDetM := (V4.mk 1 (-1) (-1) 1 : V4 K).div (detV m)
  let X := X.mul rDetM
  let Y := Y.mul rDetM
  let Z := Z.mul rDetM
  let W := W.mul rDetM
  ⟨shuffle X Y 3 1 7 5, shuffle X Y 2 0 6 4, shuffle Z W 3 1 7 5, shuffle Z W 2 0 6 4⟩

/-! ### Constructors of transforms (`rpp/impl/vmath.cpp:174-273`) -/

/-- `Mat4::look_at` (`rpp/impl/vmath.cpp:174-193`). -/
def Mat4.look_at (sqrt : K → K) (pos at_ up : V3 K) : Mat4 K :=
  let F := (at_.sub pos).unit sqrt
  let S := (F.cross up).unit sqrt
  let U := S.cross F
  ⟨⟨S.x, U.x, -F.x, 0⟩, ⟨S.y, U.y, -F.y, 0⟩, ⟨S.z, U.z, -F.z, 0⟩, ⟨-S.dot pos, -U.dot pos, F.dot pos, 1⟩⟩

/-- `Mat4::scale` (`rpp/impl/vmath.cpp:195-201`). -/
def Mat4.scale (s : V3 K) : Mat4 K := ⟨⟨s.x, 0, 0, 0⟩, ⟨0, s.y, 0, 0⟩, ⟨0, 0, s.z, 0⟩, ⟨0, 0, 0, 1⟩⟩

/-- `Mat4::rotate(f32, Vec3)` (`rpp/impl/vmath.cpp:203-219`); `c` and `s` are the cosine and sine of the angle. -/
def Mat4.rotate (sqrt : K → K) (c s : K) (axis : V3 K) : Mat4 K :=
  let a := axis.unit sqrt
  let t := a.smul (1 - c)
  ⟨⟨c + t.x * a.x, t.x * a.y + s * a.z, t.x * a.z - s * a.y, 0⟩,
   ⟨t.y * a.x - s * a.z, c + t.y * a.y, t.y * a.z + s * a.x, 0⟩,
   ⟨t.z * a.x + s * a.y, t.z * a.y - s * a.x, c + t.z * a.z, 0⟩,
   ⟨0, 0, 0, 1⟩⟩

/-- `Mat4::translate` (`rpp/impl/vmath.cpp:221-225`). -/
def Mat4.translate (v : V3 K) : Mat4 K := ⟨⟨1, 0, 0, 0⟩, ⟨0, 1, 0, 0⟩, ⟨0, 0, 1, 0⟩, ⟨v.x, v.y, v.z, 1⟩⟩

/-- `Mat4::ortho` (`rpp/impl/vmath.cpp:227-236`). -/
def Mat4.ortho (l r b t n f : K) : Mat4 K :=
  ⟨⟨2 / (r - l), 0, 0, 0⟩, ⟨0, 2 / (t - b), 0, 0⟩, ⟨0, 0, 2 / (n - f), 0⟩,
   ⟨(-l - r) / (r - l), (-b - t) / (t - b), -n / (f - n), 1⟩⟩

/-- `Mat4::proj` (`rpp/impl/vmath.cpp:238-248`); `tan` is the tangent of half the angle. -/
def Mat4.proj {K : Type} [Zero K] [One K] [Neg K] [Div K] (tan ar n : K) : Mat4 K :=
  let f := 1 / tan
  ⟨⟨f / ar, 0, 0, 0⟩, ⟨0, -f, 0, 0⟩, ⟨0, 0, 0, -1⟩, ⟨0, 0, n, 0⟩⟩

/-- `Mat4::rotate_y_to` (`rpp/impl/vmath.cpp:250-264`). `nearUp` and `nearDown` are the outcomes of the two comparisons
with `EPS_F`. -/
def Mat4.rotate_y_to (sqrt : K → K) (nearUp nearDown : K → Bool) (d : V3 K) : Mat4 K :=
  let dir := d.unit sqrt
  if nearUp dir.y then Mat4.I
  else if nearDown dir.y then ⟨⟨1, 0, 0, 0⟩, ⟨0, -1, 0, 0⟩, ⟨0, 0, 1, 0⟩, ⟨0, 0, 0, 1⟩⟩
  else
    let x := (dir.cross ⟨0, 1, 0⟩).unit sqrt
    let z := (x.cross dir).unit sqrt
    ⟨.ofV3 x 0, .ofV3 dir 0, .ofV3 z 0, ⟨0, 0, 0, 1⟩⟩

/-- `Mat4::rotate_z_to` (`rpp/impl/vmath.cpp:266-273`); unary minus of a `Vec4` is `0 - v` (`rpp/vmath.h:249`). -/
def Mat4.rotate_z_to (sqrt : K → K) (nearUp nearDown : K → Bool) (d : V3 K) : Mat4 K :=
  let y := Mat4.rotate_y_to sqrt nearUp nearDown d
  ⟨y.c0, y.c2, (V4.set1 0).sub y.c1, y.c3⟩

end

end Rpp.VMath
