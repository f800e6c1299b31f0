import Verif.Spec.Seq

/-!
# Specification: a priority queue

The contents are a bag, given as a list up to reordering. Elements that neither precede each other
are interchangeable, so the specification is a relation between the program and what it sees.
-/

namespace Rpp.Spec

/-- Strict weak order, as required of `operator<`. -/
structure SWO {α : Type _} (lt : α → α → Bool) : Prop where
  asymm : ∀ {a b}, lt a b = true → lt b a = false
  ntrans : ∀ {a b c}, lt a b = false → lt b c = false → lt a c = false

/-- Operations of a client on one heap. -/
inductive HOp (α : Type _) where
  | push (a : α)
  | pop
  | top
  /-- `x = top(); pop();` returning `x`. -/
  | take
  | length
  | clear
  | reserve (n : Nat)
  /-- Iterate over all elements (in unspecified order). -/
  | elems
  /-- `h = h.clone();`: continue with a clone and destroy the original. -/
  | reclone

variable {α : Type _}

/-- `x` is in the bag and nothing in the bag precedes it. -/
def IsMin (lt : α → α → Bool) (b : List α) (x : α) : Prop := x ∈ b ∧ ∀ y ∈ b, lt y x = false

/-- Why a program stopped. -/
inductive Stop where
  /-- `pop` on an empty heap. -/
  | popEmpty
  /-- `top` on an empty heap: the program is wrong and nothing is promised from here on. -/
  | topEmpty
  deriving DecidableEq

/-- `HTrace lt b ops r`: starting with the bag `b`, the program may see the outputs `r`, ending with
a bag, or stop at a violated precondition. -/
inductive HTrace (lt : α → α → Bool) : List α → List (HOp α) → List (Out α) → (Stop ⊕ List α) → Prop
  | nil (b) : HTrace lt b [] [] (.inr b)
  | push {b a ops os e} : HTrace lt (a :: b) ops os e → HTrace lt b (.push a :: ops) (.unit :: os) e
  | pop {b x b' ops os e} : IsMin lt b x → b.Perm (x :: b') → HTrace lt b' ops os e →
      HTrace lt b (.pop :: ops) (.unit :: os) e
  | popEmpty {ops} : HTrace lt [] (.pop :: ops) [] (.inl .popEmpty)
  | top {b x ops os e} : IsMin lt b x → HTrace lt b ops os e →
      HTrace lt b (.top :: ops) (.val x :: os) e
  | topEmpty {ops os} : HTrace lt [] (.top :: ops) os (.inl .topEmpty)
  | take {b x b' ops os e} : IsMin lt b x → b.Perm (x :: b') → HTrace lt b' ops os e →
      HTrace lt b (.take :: ops) (.val x :: os) e
  | takeEmpty {ops os} : HTrace lt [] (.take :: ops) os (.inl .topEmpty)
  | length {b ops os e} : HTrace lt b ops os e → HTrace lt b (.length :: ops) (.num b.length :: os) e
  | clear {b ops os e} : HTrace lt [] ops os e → HTrace lt b (.clear :: ops) (.unit :: os) e
  | reserve {b n ops os e} : HTrace lt b ops os e → HTrace lt b (.reserve n :: ops) (.unit :: os) e
  | elems {b l ops os e} : l.Perm b → HTrace lt b ops os e →
      HTrace lt b (.elems :: ops) (.list l :: os) e
  | reclone {b ops os e} : HTrace lt b ops os e → HTrace lt b (.reclone :: ops) (.unit :: os) e

/-- Room a program asks for. -/
def HOp.demand : HOp α → Nat
  | .push _ => 1
  | .reserve n => n
  | _ => 0

/-- Total demand. -/
def hDemand (ops : List (HOp α)) : Nat := (ops.map HOp.demand).sum

end Rpp.Spec
