import Verif.Model.BBox
import Verif.Model.Rounded
import Verif.Model.Ieee
import Mathlib.Order.Lattice

/-!
# Model: `BBox` with rounding

`Verif.Model.BBox` over the rounded numbers of `Verif.Model.Rounded`: exponents have no limits (no overflow, no subnormal numbers) and there
are no NaNs.
-/

namespace Rpp.VMath

/-- `<` compares the values. -/
instance {p : Nat} : LinearOrder (Fl p) := LinearOrder.lift' Fl.val fun _ _ h => congrArg Fl.mk h
/-- The constant `2.0f` (`rpp/vmath.h:814`). -/
instance {p : Nat} : OfNat (Fl p) 2 := ⟨⟨2⟩⟩
/-- `1 / a`, rounded; used for the constant `0.5f` (`rpp/vmath.h:804`). -/
instance {p : Nat} : Inv (Fl p) := ⟨fun a => ⟨Angle.round p a.val⁻¹⟩⟩

end Rpp.VMath

namespace Rpp.VMath

/-- `f32` with its limits: overflow, subnormal numbers and NaNs (`Verif.Model.Ieee`). -/
def F32 : Type := Ieee.F

instance : DecidableEq F32 := inferInstanceAs (DecidableEq Ieee.F)
instance : Add F32 := ⟨Ieee.add Ieee.f32⟩
instance : Mul F32 := ⟨Ieee.mul Ieee.f32⟩
/-- The constant `2.0f`. -/
instance : OfNat F32 2 := ⟨Ieee.F.fin 2⟩
/-- `1 / a`; used for the constant `0.5f`. -/
instance : Inv F32 := ⟨Ieee.div Ieee.f32 (Ieee.F.fin 1)⟩

end Rpp.VMath
