import Verif.Spec.Seq

/-!
# Specification: a last-in first-out stack
-/

namespace Rpp.Spec

variable {α : Type}

/-- Client view of a stack: what a program of pushes and pops and `top`/`length` calls sees. -/
inductive StackOp (α : Type _) where
  | push (a : α) | pop | top | length | clear

/-- Specification of a stack: most recent element first. -/
def stackStep (s : List α) : StackOp α → Option (Out α × List α)
  | .push a => some (.unit, a :: s)
  | .pop => match s with | [] => none | _ :: s => some (.unit, s)
  | .top => match s with | [] => none | a :: s => some (.val a, a :: s)
  | .length => some (.num s.length, s)
  | .clear => some (.unit, [])

def stackRun : List α → List (StackOp α) → Option (List (Out α))
  | _, [] => some []
  | s, op :: ops => do
    let (o, s) ← stackStep s op
    let os ← stackRun s ops
    return o :: os

end Rpp.Spec
