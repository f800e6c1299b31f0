import Verif.Spec.Seq

/-!
# Specification: programs over queue variables

Each variable holds a finite sequence; elements enter at the end and leave at the front. `none`
means that the precondition of an operation is violated and the program has to stop.
-/

namespace Rpp.Spec

/-- Operations of a client program on queue variables. -/
inductive QOp (α : Type _) where
  /-- `x = Queue(n)`. -/
  | fresh (x n : Nat)
  /-- `x.push(a)` / `x.emplace(a)`. -/
  | push (x : Nat) (a : α)
  /-- `x.push(x[i])`. -/
  | pushOwn (x i : Nat)
  | pop (x : Nat)
  | clear (x : Nat)
  | reserve (x n : Nat)
  /-- `x[i] = a`. -/
  | set (x i : Nat) (a : α)
  /-- `x = move(y)`. -/
  | moveAssign (x y : Nat)
  /-- `x = y.clone()`. -/
  | cloneAssign (x y : Nat)
  /-- `x.erase_first(a)`: remove the first element equal to `a`, tell whether there was one. -/
  | eraseFirst (x : Nat) (a : α)
  /-- The variable goes out of scope and a new empty one takes its name. -/
  | scopeEnd (x : Nat)
  | get (x i : Nat)
  | front (x : Nat)
  | back (x : Nat)
  | penultimate (x : Nat)
  | length (x : Nat)
  /-- Iterate over all elements. -/
  | elems (x : Nat)

variable {α : Type _} [DecidableEq α]

/-- Meaning of an operation. -/
def qStep (s : Vars α) : QOp α → Option (Out α × Vars α)
  | .fresh x _ => some (.unit, upd s x [])
  | .push x a => some (.unit, upd s x (s x ++ [a]))
  | .pushOwn x i => ((s x)[i]?).map fun a => (.unit, upd s x (s x ++ [a]))
  | .pop x => if s x = [] then none else some (.unit, upd s x (s x).tail)
  | .clear x => some (.unit, upd s x [])
  | .reserve _ _ => some (.unit, s)
  | .set x i a => if i < (s x).length then some (.unit, upd s x ((s x).set i a)) else none
  -- moving a variable to itself leaves it empty
  | .moveAssign x y => some (.unit, upd (upd s x (if x = y then [] else s y)) y [])
  | .cloneAssign x y => some (.unit, upd s x (s y))
  | .eraseFirst x a => some (.num (if a ∈ s x then 1 else 0), upd s x ((s x).erase a))
  | .scopeEnd x => some (.unit, upd s x [])
  | .get x i => ((s x)[i]?).map fun a => (.val a, s)
  | .front x => ((s x).head?).map fun a => (.val a, s)
  | .back x => ((s x).getLast?).map fun a => (.val a, s)
  | .penultimate x => ((s x).dropLast.getLast?).map fun a => (.val a, s)
  | .length x => some (.num (s x).length, s)
  | .elems x => some (.list (s x), s)

/-- Meaning of a program: all outputs and the final values, or `none` when it has to stop. -/
def qRun : Vars α → List (QOp α) → Option (List (Out α) × Vars α)
  | s, [] => some ([], s)
  | s, op :: ops =>
    match qStep s op with
    | none => none
    | some (o, s') =>
      match qRun s' ops with
      | none => none
      | some (os, s'') => some (o :: os, s'')

/-- The situations in which `clone` and `erase_first` do what they should: cloning plain data, erasing
a value that does not occur before the last position. All other operations are always fine. -/
def QOp.fine (triv : Bool) (s : Vars α) : QOp α → Prop
  | .cloneAssign _ _ => triv = true
  | .eraseFirst x a => a ∉ (s x).dropLast
  | _ => True

/-- Every operation of the program is fine in the state in which it runs. -/
def qFine (triv : Bool) : Vars α → List (QOp α) → Prop
  | _, [] => True
  | s, op :: ops => op.fine triv s ∧
    match qStep s op with
    | none => True
    | some (_, s') => qFine triv s' ops

omit [DecidableEq α]

/-- How many elements of room an operation asks for. -/
def QOp.demand : QOp α → Nat
  | .push .. | .pushOwn .. => 1
  | .fresh _ n | .reserve _ n => n
  | _ => 0

/-- Total demand of a program. -/
def qDemand (ops : List (QOp α)) : Nat := (ops.map QOp.demand).sum

/-- The variables an operation mentions. -/
def QOp.targets : QOp α → List Nat
  | .fresh x _ | .push x _ | .pushOwn x _ | .pop x | .clear x
  | .reserve x _ | .set x _ _ | .scopeEnd x | .get x _ | .front x | .back x | .penultimate x
  | .length x | .elems x => [x]
  | .eraseFirst x _ => [x]
  | .moveAssign x y | .cloneAssign x y => [x, y]

end Rpp.Spec
