import Verif.Model.Lock

/-!
# Specification: locks that are used as intended

Only the state and the operations of the model are used.
-/

namespace Rpp.Spec.Lock

open Rpp.Lock

/-- The `Lock` object `h` holds the mutex `m`. -/
def Holds (s : St) (h m : Nat) : Prop := s.ref h = some (some m)

/-- The calls a careful thread `t` makes: objects are made once and used while they exist; a thread does not lock a mutex it
holds already; a `Lock` stays with the thread that made it; a `Lock` that holds a mutex is not assigned to. -/
def Careful (s : St) : Nat × Op → Prop
  | (t, .make h m) => s.ref h = none ∧ s.owner m ≠ some t
  | (t, .moveNew h src) => s.ref h = none ∧ s.ref src ≠ none ∧ ∀ m, Holds s src m → s.owner m = some t
  | (t, .assign h src) => s.ref h = some none ∧ s.ref src ≠ none ∧ ∀ m, Holds s src m → s.owner m = some t
  | (t, .drop h) => s.ref h ≠ none ∧ ∀ m, Holds s h m → s.owner m = some t

/-- Every call of the schedule is careful when it is made. -/
def CarefulAll : St → List (Nat × Op) → Prop
  | _, [] => True
  | s, e :: es => Careful s e ∧ ∀ s', step s e = .ok s' → CarefulAll s' es

end Rpp.Spec.Lock
