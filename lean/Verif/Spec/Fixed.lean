import Verif.Model.Fixed

/-!
# Specification: what code that makes temporaries may leave behind
-/

namespace Rpp.Spec
open Rpp.Fixed

variable {V : Type}

/-- Between `s` and `s'` the objects `r` were constructed, and everything else constructed since was destroyed, once;
nothing older was destroyed. -/
structure Fresh (s s' : Ledger) (r : List Nat) : Prop where
  le : s.next ≤ s'.next
  acc : ∃ tmp, s'.dead = s.dead ++ tmp ∧ (tmp ++ r).Perm (List.range' s.next (s'.next - s.next))

/-- Only objects that were constructed have been destroyed. -/
def LedgerOk (s : Ledger) : Prop := ∀ d ∈ s.dead, d < s.next

/-- The objects exist. -/
def AllAlive (s : Ledger) (os : List (Obj V)) : Prop := ∀ o ∈ os, o.id < s.next ∧ o.id ∉ s.dead

/-- The members of a tuple, the first one first. -/
def members : Tup V → List (Obj V)
  | .nil => []
  | .cons f r => f :: members r

/-- The place whose value is at place `k` after `i` and `j` are exchanged. -/
def exchanged (i j k : Nat) : Nat := if k = i then j else if k = j then i else k

end Rpp.Spec
