import Verif.Model.PoolRace

/-!
# Data races
-/

namespace Rpp.PoolRace

/-- The field an operation touches, and whether it changes it. -/
def touches : Op → Option (Field × Bool)
  | .rd f => some (f, false)
  | .wr f => some (f, true)
  | .peek i => some (.jobs i, false)
  | _ => none

/-- The thread is in the middle of the operation. -/
def During (s : St) (t : Nat) (o : Op) : Prop := (s.thr t).busy = true ∧ (s.thr t).todo.head? = some o

/-- Two threads touch the same field at the same time, and one of them changes it. -/
def Race (s : St) (t u : Nat) (a b : Op) : Prop :=
  t ≠ u ∧ During s t a ∧ During s u b ∧ ∃ f x y, touches a = some (f, x) ∧ touches b = some (f, y) ∧ (x = true ∨ y = true)

end Rpp.PoolRace
