import Verif.Model.Sched

/-!
# The cost of growing

What a container costs is read off the states it goes through: when its capacity changes, it has been given new memory, and all its
elements have been moved.
-/

namespace Rpp.Spec

/-- The states a program goes through, with the first. -/
def trace {σ ε : Type} (step : σ → ε → Res σ) : σ → List ε → Res (List σ)
  | s, [] => .ok [s]
  | s, e :: r => match step s e with
    | .error x => .error x
    | .ok s' => match trace step s' r with
      | .error x => .error x
      | .ok l => .ok (s :: l)

/-- The number of elements that have been moved to new memory. -/
def moved {σ : Type} (len cap : σ → Nat) : List σ → Nat
  | a :: b :: r => (if cap a = cap b then 0 else len a) + moved len cap (b :: r)
  | _ => 0

/-- The number of times new memory has been allocated. -/
def allocs {σ : Type} (cap : σ → Nat) : List σ → Nat
  | a :: b :: r => (if cap a = cap b then 0 else 1) + allocs cap (b :: r)
  | _ => 0

end Rpp.Spec
