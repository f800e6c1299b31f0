import Verif.Model.Quat
import Mathlib.Algebra.Quaternion

/-!
# The quaternion meant by a `Quat`
-/

namespace Rpp.VMath
variable {K : Type} [Field K]

/-- A `Quat` as a quaternion of Mathlib. -/
def Quat.toH (q : Quat K) : Quaternion K := ⟨q.w, q.x, q.y, q.z⟩

end Rpp.VMath
