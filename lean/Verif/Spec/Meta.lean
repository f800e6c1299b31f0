import Verif.Model.Meta

/-!
# Specification: types without references and qualifiers

Only the type `Ty` of the model is used.
-/

namespace Rpp.Spec

open Rpp.Meta

/-- The type a reference refers to; other types themselves. -/
def noRef : Ty → Ty
  | .lref t => t
  | .rref t => t
  | t => t

/-- The type without `const` and `volatile` on the outside (for arrays: on the elements). -/
def noCv : Ty → Ty
  | .base _ _ n => .base false false n
  | .ptr _ _ t => .ptr false false t
  | .arr t n => .arr (noCv t) n
  | t => t

/-- Declared both `const` and `volatile` on the outside. -/
def BothCv : Ty → Prop
  | .base c v _ => c = true ∧ v = true
  | .ptr c v _ => c = true ∧ v = true
  | .arr t _ => BothCv t
  | _ => False

/-- The named type at the bottom. -/
def root : Ty → Nat
  | .base _ _ n => n
  | .ptr _ _ t => root t
  | .arr t _ => root t
  | .lref t => root t
  | .rref t => root t

/-- The elements of an array, of all dimensions, are `volatile`. -/
def VolElem : Ty → Prop
  | .base _ v _ => v = true
  | .ptr _ v _ => v = true
  | .arr t _ => VolElem t
  | _ => False

/-- An array with `volatile` elements occurs somewhere in the type. -/
def HasVolArray : Ty → Prop
  | .base _ _ _ => False
  | .ptr _ _ t => HasVolArray t
  | .arr t _ => VolElem t ∨ HasVolArray t
  | .lref t => HasVolArray t
  | .rref t => HasVolArray t

/-- The outermost constructor of a type that is not a reference. -/
def outer {N : Type} (tab : Nat → Option (N × Kind)) (t : Ty) : Option (N × Kind) :=
  match noRef t with
  | .base _ _ n => tab n
  | .ptr _ _ u => (tab (root u)).map fun x => (x.1, .pointer)
  | .arr u _ => (tab (root u)).map fun x => (x.1, .array)
  | u => (tab (root u)).map fun x => (x.1, x.2)

end Rpp.Spec
