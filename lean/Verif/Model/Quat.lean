import Verif.Model.Mat4

/-!
# Model: `Quat` in exact arithmetic

`rpp/vmath.h:642-773`. As in `Model/Mat4` the scalars are an arbitrary field, and square roots, sines and cosines are
arguments.
-/

namespace Rpp.VMath

/-- `Quat` (`rpp/vmath.h:642-661`). -/
structure Quat (K : Type) where
  x : K
  y : K
  z : K
  w : K
deriving DecidableEq

variable {K : Type} [Field K]

/-- `Quat()` (`rpp/vmath.h:646-647`). -/
def Quat.one {K : Type} [Zero K] [One K] : Quat K := ⟨0, 0, 0, 1⟩

/-- `Quat(Vec3 complex, f32 real)` (`rpp/vmath.h:650-652`). -/
def Quat.ofV3 {K : Type} (v : V3 K) (w : K) : Quat K := ⟨v.x, v.y, v.z, w⟩

/-- `conjugate` (`rpp/vmath.h:696-698`). -/
def Quat.conjugate {K : Type} [Neg K] (q : Quat K) : Quat K := ⟨-q.x, -q.y, -q.z, q.w⟩

/-- `norm2` (`rpp/vmath.h:709-711`). -/
def Quat.norm2 (q : Quat K) : K := q.x * q.x + q.y * q.y + q.z * q.z + q.w * q.w

/-- `unit` (`rpp/vmath.h:712-718`). -/
def Quat.unit (sqrt : K → K) (q : Quat K) : Quat K :=
  let n := sqrt q.norm2
  ⟨q.x / n, q.y / n, q.z / n, q.w / n⟩

/-- `inverse` (`rpp/vmath.h:699-701`). -/
def Quat.inverse (sqrt : K → K) (q : Quat K) : Quat K := q.conjugate.unit sqrt

/-- `complex` (`rpp/vmath.h:702-704`). -/
def Quat.complex {K : Type} (q : Quat K) : V3 K := ⟨q.x, q.y, q.z⟩

/-- `operator*(const Quat&)` (`rpp/vmath.h:720-723`). -/
def Quat.mul {K : Type} [Add K] [Sub K] [Mul K] (q r : Quat K) : Quat K :=
  ⟨q.y * r.z - q.z * r.y + q.x * r.w + q.w * r.x, q.z * r.x - q.x * r.z + q.y * r.w + q.w * r.y,
   q.x * r.y - q.y * r.x + q.z * r.w + q.w * r.z, q.w * r.w - q.x * r.x - q.y * r.y - q.z * r.z⟩

/-- `operator*(f32)` (`rpp/vmath.h:724-726`). -/
def Quat.smul (q : Quat K) (s : K) : Quat K := ⟨s * q.x, s * q.y, s * q.z, s * q.w⟩

/-- `operator+` (`rpp/vmath.h:728-730`). -/
def Quat.add (q r : Quat K) : Quat K := ⟨q.x + r.x, q.y + r.y, q.z + r.z, q.w + r.w⟩

/-- `operator-` (`rpp/vmath.h:731-733`). -/
def Quat.sub (q r : Quat K) : Quat K := ⟨q.x - r.x, q.y - r.y, q.z - r.z, q.w - r.w⟩

/-- Unary `operator-` (`rpp/vmath.h:734-736`). -/
def Quat.neg {K : Type} [Neg K] (q : Quat K) : Quat K := ⟨-q.x, -q.y, -q.z, -q.w⟩

/-- `to_mat` (`rpp/vmath.h:742-748`). -/
def Quat.to_mat {K : Type} [Zero K] [One K] [OfNat K 2] [Add K] [Sub K] [Mul K] (q : Quat K) : Mat4 K :=
  ⟨⟨1 - 2 * q.y * q.y - 2 * q.z * q.z, 2 * q.x * q.y + 2 * q.z * q.w, 2 * q.x * q.z - 2 * q.y * q.w, 0⟩,
   ⟨2 * q.x * q.y - 2 * q.z * q.w, 1 - 2 * q.x * q.x - 2 * q.z * q.z, 2 * q.y * q.z + 2 * q.x * q.w, 0⟩,
   ⟨2 * q.x * q.z + 2 * q.y * q.w, 2 * q.y * q.z - 2 * q.x * q.w, 1 - 2 * q.x * q.x - 2 * q.y * q.y, 0⟩,
   ⟨0, 0, 0, 1⟩⟩

/-- `rotate` (`rpp/vmath.h:750-752`). -/
def Quat.rotate {K : Type} [Zero K] [Add K] [Sub K] [Mul K] [Neg K] (q : Quat K) (v : V3 K) : V3 K := ((q.mul (.ofV3 v 0)).mul q.conjugate).complex

/-- `axis_angle` (`rpp/vmath.h:663-672`); `c` and `s` are the cosine and sine of half the angle. -/
def Quat.axis_angle (sqrt : K → K) (axis : V3 K) (c s : K) : Quat K :=
  let a := axis.unit sqrt
  Quat.unit sqrt ⟨s * a.x, s * a.y, s * a.z, c⟩

/-- `euler` (`rpp/vmath.h:673-687`): `cos` and `sin` take degrees. -/
def Quat.euler [DecidableEq K] (cos sin : K → K) (a : V3 K) : Quat K :=
  if a = ⟨0, 0, 180⟩ ∨ a = ⟨180, 0, 0⟩ then ⟨0, 0, -1, 0⟩
  else
    let c1 := cos (a.z * 2⁻¹)
    let c2 := cos (a.y * 2⁻¹)
    let c3 := cos (a.x * 2⁻¹)
    let s1 := sin (a.z * 2⁻¹)
    let s2 := sin (a.y * 2⁻¹)
    let s3 := sin (a.x * 2⁻¹)
    ⟨c1 * c2 * s3 - s1 * s2 * c3, c1 * s2 * c3 + s1 * c2 * s3, s1 * c2 * c3 - c1 * s2 * s3, c1 * c2 * c3 + s1 * s2 * s3⟩

/-- `Mat4::to_euler` (`rpp/impl/vmath.cpp:385-417`), the angles left in the unit of `atan2`; `close x y` is
`abs(x - y) < EPS_F`, `big x` is `x > EPS_F`, `flip` is the answer `(0, 0, 180)`, `far` is the comparison `d1 > d2` of
the two candidates' sizes. -/
def Mat4.to_euler {A : Type} (hypot : K → K → K) (atan2 : K → K → A) (close : K → K → Bool) (big : K → Bool) (flip : V3 A)
    (zero : A) (far : V3 A → V3 A → Bool) (m : Mat4 K) : V3 A :=
  let c := m
  if close c.c0.x 1 && close c.c0.y 0 && close c.c0.z 0 && close c.c0.w 0 &&
     close c.c1.x 0 && close c.c1.y (-1) && close c.c1.z 0 && close c.c1.w 0 &&
     close c.c2.x 0 && close c.c2.y 0 && close c.c2.z 1 && close c.c2.w 0 then flip
  else
    let cy := hypot c.c0.x c.c0.y
    let (e1, e2) : V3 A × V3 A :=
      if big cy then
        (⟨atan2 c.c1.z c.c2.z, atan2 (-c.c0.z) cy, atan2 c.c0.y c.c0.x⟩,
         ⟨atan2 (-c.c1.z) (-c.c2.z), atan2 (-c.c0.z) (-cy), atan2 (-c.c0.y) (-c.c0.x)⟩)
      else
        let e : V3 A := ⟨atan2 (-c.c2.y) c.c1.y, atan2 (-c.c0.z) cy, zero⟩
        (e, e)
    if far e1 e2 then e2 else e1

end Rpp.VMath
