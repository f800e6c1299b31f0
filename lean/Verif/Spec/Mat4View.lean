import Verif.Model.Mat4
import Verif.Spec.Mat4

/-!
# The matrix and vector meant by a `Mat4` and a `Vec4`
-/

namespace Rpp.VMath
variable {K : Type} [Field K]

/-- The matrix meant by a `Mat4`. -/
def Mat4.toMatrix (m : Mat4 K) : Matrix (Fin 4) (Fin 4) K := fun i j => (m.col j).get i

/-- The vector meant by a `Vec4`. -/
def V4.toVec (v : V4 K) : Fin 4 → K := fun i => v.get i

end Rpp.VMath
