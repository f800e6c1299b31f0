import Verif.Model.Rounded

/-!
# Model: the perspective projection with rounding

`Mat4::proj` of `Verif.Model.Mat4` over rounded numbers, applied to points. As in `Verif.Model.Rounded` exponents have no limits.
-/

namespace Rpp.VMath

/-- `/` rounds to the nearest number. Where the divisor is zero the program has an infinity or NaN, which is not modelled: the theorems
exclude it. -/
instance {p : Nat} : Div (Fl p) := ⟨fun a b => ⟨Angle.round p (a.val / b.val)⟩⟩

/-- `Vec4::proj` (`rpp/vmath.h:278-284`). -/
def V4.proj {K : Type} [Div K] (v : V4 K) : V3 K := ⟨v.x / v.w, v.y / v.w, v.z / v.w⟩

/-- The clip coordinates of a point: `Mat4::proj(fov, ar, n) * Vec4{q, 1.0f}` (`rpp/impl/vmath.cpp:238-248, 357-361`). `tan` is the
tangent of half the angle as computed. -/
def clip {K : Type} [Zero K] [One K] [Add K] [Mul K] [Neg K] [Div K] (tan ar n : K) (q : V3 K) : V4 K :=
  (Mat4.proj tan ar n).mulV4 ⟨q.x, q.y, q.z, 1⟩

end Rpp.VMath
