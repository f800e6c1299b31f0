/-!
# What a loop over a sequence sees when its body changes the sequence

The loop takes as many turns as there were elements at its start; turn `i` looks at whatever is then in place `i`.
-/

namespace Rpp.Spec

/-- What the body of a loop may do to the sequence that is looped over. -/
inductive Act (α : Type _) where
  | push (y : α) | pop | clear
  deriving DecidableEq, Repr

variable {α : Type _}

/-- How many elements are added. -/
def pushes : List (Act α) → Nat
  | [] => 0
  | .push _ :: as => pushes as + 1
  | _ :: as => pushes as

/-- The sequence after some actions; `popped` says what `pop` leaves. Nothing if `pop` meets an empty sequence. -/
def acted (popped : List α → List α) : List α → List (Act α) → Option (List α)
  | l, [] => some l
  | l, .push y :: as => acted popped (l ++ [y]) as
  | l, .clear :: as => acted popped [] as
  | l, .pop :: as => if l.isEmpty then none else acted popped (popped l) as

/-- The elements seen in `n` turns from place `i` on, and the sequence that is left. Nothing if a turn finds no element in its
place. -/
def seen (popped : List α → List α) (body : α → List (Act α)) : Nat → Nat → List α → Option (List α × List α)
  | _, 0, l => some ([], l)
  | i, n + 1, l =>
    match l[i]? with
    | none => none
    | some x =>
      match acted popped l (body x) with
      | none => none
      | some l' => (seen popped body (i + 1) n l').map fun r => (x :: r.1, r.2)

end Rpp.Spec
