import Verif.Model.Map

/-!
# Specification: looking at few slots
-/

namespace Rpp.Spec

/-- A loop that, given `n` turns, has ended with `x`, and does not change its mind given more. -/
def Within {β : Type _} (n : Nat) (loop : Nat → Res β) (x : β) : Prop :=
  ∀ turns, n ≤ turns → loop turns = .ok x

/-- A loop that makes at least `n` turns. -/
def AtLeast {β : Type _} (n : Nat) (loop : Nat → Res β) : Prop :=
  ∀ turns, turns < n → loop turns = .error .hang

/-- The number of slots in use. -/
def entries {K V : Type _} (m : Map K V) : Nat := (m.data.filter Option.isSome).length

/-- The way from the index the hash asks for to the index `i` of the slot, going round at the end of
the table. -/
def wayTo {K V : Type _} (m : Map K V) (s : Slot K V) (i : Nat) : Nat :=
  (i + m.cap - s.hash / 2 ^ m.shift) % m.cap

end Rpp.Spec
