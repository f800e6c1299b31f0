import Verif.Model.View

/-!
# Spec: views of vectors

A view has the components of its letters.
-/

namespace Rpp.Spec.View
open Rpp.View

/-- Which components of a vector the letters of a name are. -/
def letters : Name → List Nat
  | .xy => [0, 1]
  | .yz => [1, 2]
  | .zw => [2, 3]
  | .xyz => [0, 1, 2]
  | .yzw => [1, 2, 3]

/-- Which components of a vector with `n` components a view of a view of … is: `none` if one of the letters is missing, or the vector is
shorter than three. -/
def comps : List Nat → List Name → Option (List Nat)
  | c, [] => some c
  | c, n :: ns => if 2 < c.length ∧ c.length < 5 ∧ (letters n).length < c.length ∧ (letters n).all (· < c.length) then
      comps ((letters n).filterMap (c[·]?)) ns else none

/-- The components of a vector `m` of a view. -/
def named {T : Type} (m : List T) (p : List Name) : Option (List Nat) := comps (List.range m.length) p

/-- The vector `m'` is `m` with the values `xs` in the components `ps`, and nothing else changed. -/
def Changed {T : Type} (m m' : List T) (ps : List Nat) (xs : List T) : Prop :=
  m'.length = m.length ∧ xs.length = ps.length ∧ (∀ i j : Nat, ps[i]? = some j → m'[j]? = xs[i]?) ∧ ∀ j, j ∉ ps → m'[j]? = m[j]?

/-- What the operations mean. The values on the right are those before the operation. -/
def Means {T : Type} (m m' : List T) : Op T → Prop
  | .set p i x => ∃ ps j, named m p = some ps ∧ ps[i]? = some j ∧ Changed m m' [j] [x]
  | .store p l => ∃ ps, named m p = some ps ∧ Changed m m' ps l
  | .assign p q => ∃ ps qs, named m p = some ps ∧ named m q = some qs ∧ Changed m m' ps (qs.filterMap (m[·]?))
  | .comb f p q => ∃ ps qs, named m p = some ps ∧ named m q = some qs ∧
      Changed m m' ps (List.zipWith f (ps.filterMap (m[·]?)) (qs.filterMap (m[·]?)))
  | .scalar f p q j => ∃ ps qs k y, named m p = some ps ∧ named m q = some qs ∧ qs[j]? = some k ∧ m[k]? = some y ∧
      Changed m m' ps ((ps.filterMap (m[·]?)).map (f · y))
  | .neg g p => ∃ ps, named m p = some ps ∧ Changed m m' ps ((ps.filterMap (m[·]?)).map g)

/-- The operation compiles for vectors of length `n`: the views exist, and the two sides have the same length. -/
def Compiles {T : Type} (n : Nat) : Op T → Prop
  | .set p _ _ => (comps (List.range n) p).isSome
  | .store p l => (comps (List.range n) p).map (·.length) = some l.length
  | .assign p q => (comps (List.range n) p).isSome ∧ (comps (List.range n) p).map (·.length) = (comps (List.range n) q).map (·.length)
  | .comb _ p q => (comps (List.range n) p).isSome ∧ (comps (List.range n) p).map (·.length) = (comps (List.range n) q).map (·.length)
  | .scalar _ p q _ => (comps (List.range n) p).isSome ∧ (comps (List.range n) q).isSome
  | .neg _ p => (comps (List.range n) p).isSome

/-- What must hold for it to be defined: components that are written or read by number exist in the view, and vectors that are assigned
share all components or none. -/
def Defined {T : Type} (n : Nat) : Op T → Prop
  | .set p i _ => ∀ ps, comps (List.range n) p = some ps → i < ps.length
  | .scalar _ _ q j => ∀ qs, comps (List.range n) q = some qs → j < qs.length
  | .assign p q => ∀ ps qs, comps (List.range n) p = some ps → comps (List.range n) q = some qs → ps = qs ∨ ∀ j ∈ ps, j ∉ qs
  | _ => True

end Rpp.Spec.View
