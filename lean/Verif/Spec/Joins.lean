import Verif.Model.Joins

/-!
# Specification of thread ids and joins
-/

namespace Rpp.Joins.Spec

open Rpp.Joins

/-- `s` can come about. -/
def Reach (p : Platform) (s : State) : Prop := ∃ h i es, run p (init h i) es = some (.ok s)

/-- Something can happen in `s`: the threads are not stuck. -/
def Live (p : Platform) (s : State) : Prop := ∃ e r, step p s e = some r

/-- Each `join` among the events goes from a thread of lower to one of higher rank. -/
def Ranked (rank : Nat → Nat) (es : List Ev) : Prop := ∀ t u, Ev.join t u ∈ es → rank t < rank u

end Rpp.Joins.Spec
