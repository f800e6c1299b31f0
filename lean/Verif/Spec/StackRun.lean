import Verif.Model.Vec
import Verif.Spec.Stack

/-!
# Programs that use a `Stack`
-/

namespace Rpp
open Rpp.Spec
variable {α : Type}

/-- The implementation: `rpp/stack.h:43-84`, forwarding to `Vec`. -/
def stackImplStep (T : Traits) (s : Vec) : StackOp α → M α (Out α × Vec)
  | .push a => do return (.unit, ← Stack.push T s a)
  | .pop => do return (.unit, ← Stack.pop T s)
  | .top => do return (.val (← Stack.top s), s)
  | .length => return (.num (Stack.length s), s)
  | .clear => do return (.unit, ← Stack.clear T s)

/-- Run a program on a stack. -/
def stackImplRun (T : Traits) : Vec → List (StackOp α) → M α (List (Out α))
  | _, [] => pure []
  | s, op :: ops => do
    let (o, s) ← stackImplStep T s op
    let os ← stackImplRun T s ops
    return o :: os

end Rpp
