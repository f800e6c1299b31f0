/-!
# Specification: a program using several sequence variables

Client programs manipulate variables `0, 1, 2, ...`, each holding a finite sequence. This file says
what each operation means on mathematical lists; it mentions nothing of the implementation.
`none` means that the operation's precondition is violated: the program has to stop.
-/

namespace Rpp.Spec

/-- Operations of a client program on vector variables. -/
inductive VecOp (α : Type _) where
  /-- `x = Vec(n)`: empty, room for `n` elements. -/
  | fresh (x n : Nat)
  /-- `x = Vec::make(n)`: `n` default elements. -/
  | make (x n : Nat)
  /-- `x = Vec{l0, l1, ...}`. -/
  | init (x : Nat) (l : List α)
  /-- `x.push(a)` / `x.emplace(a)`. -/
  | push (x : Nat) (a : α)
  /-- `x.push(x[i])`. -/
  | pushOwn (x i : Nat)
  | pop (x : Nat)
  | clear (x : Nat)
  | resize (x n : Nat)
  | extend (x n : Nat)
  | reserve (x n : Nat)
  /-- `x[i] = a`. -/
  | set (x i : Nat) (a : α)
  /-- `x = move(y)`. -/
  | moveAssign (x y : Nat)
  /-- `x = y.clone()`. -/
  | cloneAssign (x y : Nat)
  /-- The variable goes out of scope and a new empty one takes its name. -/
  | scopeEnd (x : Nat)
  | get (x i : Nat)
  | front (x : Nat)
  | back (x : Nat)
  | length (x : Nat)
  /-- Iterate over all elements. -/
  | elems (x : Nat)

/-- What the client sees from an operation. -/
inductive Out (α : Type _) where
  | unit
  | val (a : α)
  | num (n : Nat)
  | list (l : List α)
  deriving DecidableEq, Repr

/-- Values of all variables. -/
abbrev Vars (α : Type _) := Nat → List α

variable {α : Type _}

/-- Change one variable. -/
def upd {β : Type _} (f : Nat → β) (x : Nat) (b : β) : Nat → β := fun y => if y = x then b else f y

/-- Meaning of an operation; `d` is the default element `T{}`. -/
def vecStep (d : α) (s : Vars α) : VecOp α → Option (Out α × Vars α)
  | .fresh x _ => some (.unit, upd s x [])
  | .make x n => some (.unit, upd s x (List.replicate n d))
  | .init x l => some (.unit, upd s x l)
  | .push x a => some (.unit, upd s x (s x ++ [a]))
  | .pushOwn x i => ((s x)[i]?).map fun a => (.unit, upd s x (s x ++ [a]))
  | .pop x => if s x = [] then none else some (.unit, upd s x (s x).dropLast)
  | .clear x => some (.unit, upd s x [])
  | .resize x n => some (.unit, upd s x ((s x).take n ++ List.replicate (n - (s x).length) d))
  | .extend x n => some (.unit, upd s x (s x ++ List.replicate n d))
  | .reserve _ _ => some (.unit, s)
  | .set x i a => if i < (s x).length then some (.unit, upd s x ((s x).set i a)) else none
  -- moving a variable to itself leaves it empty
  | .moveAssign x y => some (.unit, upd (upd s x (if x = y then [] else s y)) y [])
  | .cloneAssign x y => some (.unit, upd s x (s y))
  | .scopeEnd x => some (.unit, upd s x [])
  | .get x i => ((s x)[i]?).map fun a => (.val a, s)
  | .front x => ((s x).head?).map fun a => (.val a, s)
  | .back x => ((s x).getLast?).map fun a => (.val a, s)
  | .length x => some (.num (s x).length, s)
  | .elems x => some (.list (s x), s)

/-- Meaning of a program: all outputs and the final values, or `none` when it has to stop. -/
def vecRun (d : α) : Vars α → List (VecOp α) → Option (List (Out α) × Vars α)
  | s, [] => some ([], s)
  | s, op :: ops =>
    match vecStep d s op with
    | none => none
    | some (o, s') =>
      match vecRun d s' ops with
      | none => none
      | some (os, s'') => some (o :: os, s'')

/-- How many elements of room the program asks for in total. -/
def VecOp.demand : VecOp α → Nat
  | .push .. | .pushOwn .. => 1
  | .init _ l => l.length
  | .fresh _ n | .make _ n | .resize _ n | .extend _ n | .reserve _ n => n
  | _ => 0

/-- Total demand of a program. -/
def vecDemand (ops : List (VecOp α)) : Nat := (ops.map VecOp.demand).sum

/-- The variables an operation may change. -/
def VecOp.targets : VecOp α → List Nat
  | .fresh x _ | .make x _ | .init x _ | .push x _ | .pushOwn x _ | .pop x | .clear x | .resize x _ | .extend x _
  | .reserve x _ | .set x _ _ | .scopeEnd x | .get x _ | .front x | .back x | .length x | .elems x => [x]
  | .moveAssign x y | .cloneAssign x y => [x, y]

end Rpp.Spec
