import Verif.Model.Mem

/-!
# Specification: component-wise operations
-/

namespace Rpp.Spec

/-- `res` is the vector of length `n` whose component `i` is `f i`; it is undefined just when a component is. -/
def Componentwise {T : Type} (n : Nat) (f : Nat → Res T) (res : Res (Nat → T)) : Prop :=
  (∀ r, res = .ok r → ∀ i, i < n → f i = .ok (r i)) ∧ ((∀ i, i < n → ∃ x, f i = .ok x) → ∃ r, res = .ok r)

end Rpp.Spec
