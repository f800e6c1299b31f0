import Verif.Model.Mem

/-!
# Specification: windows and names

A window is the list of the places it shows, in order; a name stands for a place or for nothing. Nothing here refers to pointers.
-/

namespace Rpp.Spec.Win

/-- What a program does with windows on an array: take a part of one, read or write an element, its first or last element, or
read all elements in order. -/
inductive Op (α : Type) where
  | sub (v start n : Nat)
  | read (v i : Nat)
  | write (v i : Nat) (x : α)
  | front (v : Nat)
  | back (v : Nat)
  | all (v : Nat)
  deriving DecidableEq

/-- The array, the windows in order of creation, and what was read. -/
structure St (α : Type) where
  mem : List α
  wins : List (List Nat)
  out : List α
  deriving DecidableEq

variable {α : Type}

/-- The elements at places. -/
def look (mem : List α) (w : List Nat) : List α := w.filterMap (mem[·]?)

/-- One operation: a place that is not in the window ends the program; `none` is a window that was never made. -/
def step (s : St α) : Op α → Res (St α)
  | .sub v start n => match s.wins[v]? with
    | none => .error .ub
    | some w => if start + n ≤ w.length then .ok { s with wins := s.wins ++ [(w.drop start).take n] } else .error .die
  | .read v i => match s.wins[v]? with
    | none => .error .ub
    | some w => match w[i]? with
      | none => .error .die
      | some a => .ok { s with out := s.out ++ look s.mem [a] }
  | .write v i x => match s.wins[v]? with
    | none => .error .ub
    | some w => match w[i]? with
      | none => .error .die
      | some a => .ok { s with mem := s.mem.set a x }
  | .front v => match s.wins[v]? with
    | none => .error .ub
    | some w => match w.head? with
      | none => .error .die
      | some a => .ok { s with out := s.out ++ look s.mem [a] }
  | .back v => match s.wins[v]? with
    | none => .error .ub
    | some w => match w.getLast? with
      | none => .error .die
      | some a => .ok { s with out := s.out ++ look s.mem [a] }
  | .all v => match s.wins[v]? with
    | none => .error .ub
    | some w => .ok { s with out := s.out ++ look s.mem w }

/-- A program. -/
def run (s : St α) : List (Op α) → Res (St α)
  | [] => .ok s
  | o :: os => match step s o with
    | .ok s => run s os
    | .error e => .error e

/-- No part asked for lies beyond the 64-bit numbers. -/
def Fits : Op α → Prop
  | .sub _ start n => start + n < 2 ^ 64
  | _ => True

/-- Operations on names: a name for a place, a name for nothing, a copy, `x = y`, a new name from `move(y)`, `x = move(y)`, and use. -/
inductive ROp where
  | new (a : Nat)
  | null
  | copy (y : Nat)
  | assign (x y : Nat)
  | moveNew (y : Nat)
  | moveTo (x y : Nat)
  | use (x : Nat)
  deriving DecidableEq

/-- One operation on names: a move hands the place over; using a name for nothing ends the program. The second component are the
places used. -/
def rstep (s : List (Option Nat) × List Nat) : ROp → Res (List (Option Nat) × List Nat)
  | .new a => .ok (s.1 ++ [some a], s.2)
  | .null => .ok (s.1 ++ [none], s.2)
  | .copy y => match s.1[y]? with
    | none => .error .ub
    | some a => .ok (s.1 ++ [a], s.2)
  | .assign x y => match s.1[x]?, s.1[y]? with
    | some _, some a => .ok (s.1.set x a, s.2)
    | _, _ => .error .ub
  | .moveNew y => match s.1[y]? with
    | none => .error .ub
    | some a => .ok (s.1.set y none ++ [a], s.2)
  | .moveTo x y => match s.1[x]?, s.1[y]? with
    | some _, some a => .ok ((s.1.set y none).set x a, s.2)
    | _, _ => .error .ub
  | .use x => match s.1[x]? with
    | none => .error .ub
    | some none => .error .die
    | some (some a) => .ok (s.1, s.2 ++ [a])

/-- A program. -/
def rrun (s : List (Option Nat) × List Nat) : List ROp → Res (List (Option Nat) × List Nat)
  | [] => .ok s
  | o :: os => match rstep s o with
    | .ok s => rrun s os
    | .error e => .error e

/-- No name is moved to itself. -/
def NoSelf : ROp → Prop
  | .moveTo x y => x ≠ y
  | _ => True

end Rpp.Spec.Win
