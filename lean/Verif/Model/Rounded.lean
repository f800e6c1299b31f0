import Verif.Model.Angle
import Verif.Model.Quat

/-!
# Model: products of matrices, vectors and quaternions with rounding

`Verif.Model.Mat4` and `Verif.Model.Quat` over numbers that are rounded after each operation. As in `Verif.Model.Angle` exponents have no
limits (no overflow, no subnormal numbers) and there are no NaNs.
-/

namespace Rpp.VMath

/-- A number of a floating point type of precision `p` (`f32`: 24, `rpp/base.h:82`). -/
structure Fl (p : Nat) where
  val : Rat
deriving DecidableEq

/-- `+`, `-`, `*` round to the nearest number; unary `-` is exact. The products of `rpp/impl/simd.cpp:40-70, 98-110` are lanes of these. -/
instance {p : Nat} : Add (Fl p) := ⟨fun a b => ⟨Angle.round p (a.val + b.val)⟩⟩
instance {p : Nat} : Sub (Fl p) := ⟨fun a b => ⟨Angle.round p (a.val - b.val)⟩⟩
instance {p : Nat} : Mul (Fl p) := ⟨fun a b => ⟨Angle.round p (a.val * b.val)⟩⟩
instance {p : Nat} : Neg (Fl p) := ⟨fun a => ⟨-a.val⟩⟩
instance {p : Nat} : Zero (Fl p) := ⟨⟨0⟩⟩
instance {p : Nat} : One (Fl p) := ⟨⟨1⟩⟩
instance {p : Nat} : OfNat (Fl p) 2 := ⟨⟨2⟩⟩

/-- `a * b - c * d` when the compiler fuses the first product with the difference, as it may within one expression where the processor can
(`-ffp-contract=on` is the default of clang; AArch64 can). -/
def Fl.fuse {p : Nat} (a b c d : Fl p) : Fl p := ⟨Angle.round p (a.val * b.val - (c * d).val)⟩

/-- `cross` (`rpp/vmath.h:498-500`), fused. -/
def V3.crossFused {p : Nat} (l r : V3 (Fl p)) : V3 (Fl p) :=
  ⟨.fuse l.y r.z l.z r.y, .fuse l.z r.x l.x r.z, .fuse l.x r.y l.y r.x⟩

end Rpp.VMath
