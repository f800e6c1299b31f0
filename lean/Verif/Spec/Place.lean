import Verif.Model.Place

/-!
# Specification: suitable places
-/

namespace Rpp.Place.Spec

/-- A type of the language: the alignment is a power of two, and the size a positive multiple of it. -/
def IsType (t : Ty) : Prop := (∃ k, t.al = 2 ^ k) ∧ t.al ∣ t.size ∧ 0 < t.size

/-- An object of type `t` may be at address `a`. -/
def Suits (a : Nat) (t : Ty) : Prop := t.al ∣ a

/-- What `malloc` may answer. -/
def Malloc (a : Nat) : Prop := 16 ∣ a

end Rpp.Place.Spec
