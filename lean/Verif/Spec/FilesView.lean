import Verif.Model.Files

/-!
# What of the file system a program sees
-/

namespace Rpp.Files
open Rpp.Spec
variable {P : Type} [DecidableEq P]

/-- The contents of all files. -/
def contents (w : World P) : Contents P := fun p => (w.files p).map (·.bytes)

/-- Descriptor numbers in use are below the next one. -/
def Fresh (w : World P) : Prop := ∀ x ∈ w.fds, x.1 < w.next

end Rpp.Files
