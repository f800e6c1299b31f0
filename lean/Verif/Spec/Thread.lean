import Verif.Model.Thread

/-!
# `Thread` handles: what is to hold

Stated on the list of variables and the list of threads alone.
-/

namespace Rpp
namespace Thr

/-- What an operation may be used on: every variable it names is in scope, and `join` and `detach` find a
thread there. -/
def Allowed (s : St) : Ev → Prop
  | .fin _ | .null | .start => True
  | .move v | .leave v => ∃ h, s.vars[v]? = some (some h)
  | .assign v w => (∃ h, s.vars[v]? = some (some h)) ∧ ∃ h, s.vars[w]? = some (some h)
  | .join v | .detach v => ∃ i, s.vars[v]? = some (some (some i))

/-- Variable `v` holds thread `i`. -/
def Holds (s : St) (v i : Nat) : Prop := s.vars[v]? = some (some (some i))

/-- All variables have left their scope. -/
def AllLeft (s : St) : Prop := ∀ x ∈ s.vars, x = none

end Thr
end Rpp
