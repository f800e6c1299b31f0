/-!
# Spec: shuffling

What a fair shuffle does with its choices, apart from how they are made.
-/

namespace Rpp.Spec

/-- The first choice names the element that goes to the front; the one that was there takes its place, and the rest goes on in the same
way. -/
def deal {α : Type _} : List Nat → List α → List α
  | [], l => l
  | _ :: _, [] => []
  | 0 :: ks, x :: xs => x :: deal ks xs
  | (k + 1) :: ks, x :: xs =>
    match xs[k]? with
    | some y => y :: deal ks (xs.set k x)
    | none => x :: xs

/-- The choices for `n` elements: among `n`, then among `n - 1`, down to two. -/
def Choices (n : Nat) (ks : List Nat) : Prop :=
  ks.length + 1 = n ∧ ∀ i k, ks[i]? = some k → k < n - i

end Rpp.Spec
