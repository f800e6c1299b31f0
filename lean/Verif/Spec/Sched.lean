import Verif.Model.Sched

namespace Rpp

/-- The number of events of a schedule that change the state, that is, at which some thread makes progress. -/
def changes {σ ε : Type} [DecidableEq σ] (step : σ → ε → Res σ) : σ → List ε → Nat
  | _, [] => 0
  | s, e :: r => match step s e with
    | .ok s' => (if s' = s then 0 else 1) + changes step s' r
    | .error _ => 0

end Rpp
