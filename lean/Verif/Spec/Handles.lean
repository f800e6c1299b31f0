import Verif.Model.Handles

/-!
# Specification of handles of coroutines
-/

namespace Rpp.Handles.Spec

open Rpp.Handles

/-- The promise, of alignment `al`, of the frame `f` lies at `x`: after the two pointers, at the first place its alignment allows. -/
def PromiseAt (f : Addr) (al : Nat) (x : Addr) : Prop :=
  ∃ d, x = f + BitVec.ofNat 64 d ∧ 16 ≤ d ∧ al ∣ d ∧ ∀ d', 16 ≤ d' → al ∣ d' → d ≤ d'

/-- An address at which a frame can lie: it begins with pointers. -/
def FrameAddr (f : Addr) : Prop := f ≠ 0 ∧ f.toNat % 8 = 0

end Rpp.Handles.Spec
