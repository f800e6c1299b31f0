import Verif.Model.Profile
import Verif.Spec.Profile

/-!
# What of the profiler the specification sees
-/

namespace Rpp.Prof
open Rpp.Spec.Prof
variable {L : Type}

/-- Location and parent of every node. -/
def tree (ns : List (Node L)) : List (L × Nat) := ns.map fun n => (n.loc, n.parent)

/-- The event as the specification sees it. -/
def toAct : Ev L → Act L
  | .enter l t => .enter l t
  | .exit t => .exit t

end Rpp.Prof
