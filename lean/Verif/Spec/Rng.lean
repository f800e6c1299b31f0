import Mathlib.SetTheory.Cardinal.Finite

/-! # Spec: how many of the `2 ^ 64` states of a generator have a property -/

namespace Rpp.Spec

/-- The number of states with property `P`. -/
noncomputable def states (P : BitVec 64 → Prop) : Nat := Nat.card {s : BitVec 64 // P s}

end Rpp.Spec
