import Verif.Model.Function

/-!
# What functions are

A variable holds a closure or nothing. Moving empties the source. Calls go to the closure held.
-/

namespace Rpp.Spec
open Rpp.Fun

variable {σ A R : Type}

/-- Variables with closures (type, captured state), results of the calls, and how often a closure was moved. -/
structure FunSt (σ R : Type) where
  vars : List (Option (Option (Nat × σ)))
  out : List R
  moves : Nat
  deriving DecidableEq, Repr

/-- What variable `v` holds. -/
def FunSt.get (s : FunSt σ R) (v : Nat) : Res (Option (Nat × σ)) :=
  match s.vars[v]? with
  | some (some c) => .ok c
  | _ => .error .ub

/-- One operation. -/
def funStep (call : Nat → σ → A → σ × R) (s : FunSt σ R) : Op σ A → Res (FunSt σ R)
  | .make ty st => .ok { s with vars := s.vars ++ [some (some (ty, st))] }
  | .move v => do
    let c ← s.get v
    return { s with vars := s.vars.set v (some none) ++ [some c], moves := s.moves + c.toList.length }
  | .assign v w => do
    let _ ← s.get v
    let c ← s.get w
    if v = w then return { s with vars := s.vars.set v (some none) }
    else return { s with
      vars := (s.vars.set v (some c)).set w (some none)
      moves := s.moves + c.toList.length }
  | .invoke v a => do
    match ← s.get v with
    | none => .error .die
    | some (t, st) =>
      return { s with vars := s.vars.set v (some (some (t, (call t st a).1))), out := s.out ++ [(call t st a).2] }
  | .leave v => do
    let _ ← s.get v
    return { s with vars := s.vars.set v none }

/-- Programs. -/
def funRun (call : Nat → σ → A → σ × R) : FunSt σ R → List (Op σ A) → Res (FunSt σ R)
  | s, [] => .ok s
  | s, op :: r => do funRun call (← funStep call s op) r

end Rpp.Spec
