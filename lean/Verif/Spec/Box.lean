import Verif.Model.Box

/-!
# What boxes are

A box is a value: nothing, or a datum together with another box. So a variable holds a list of data, its
`n`-th link is the list from position `n` on, and operations are list operations. Variables that are out
of scope are `none`.
-/

namespace Rpp.Spec
open Rpp.BoxM

variable {α : Type}

/-- The list in variable `v`, if it has a link number `n`: a link is reached through `n` data. -/
def boxLink (vs : List (Option (List α))) (p : Path) : Res (List α) :=
  match vs[p.var]? with
  | some (some l) => if p.steps ≤ l.length then .ok l else .error .die
  | _ => .error .ub

/-- One operation on values. Taking from a link leaves it empty, also when it is put back at once. -/
def boxStep (vs : List (Option (List α))) : Op α → Res (List (Option (List α)))
  | .null => .ok (vs ++ [some []])
  | .make a => .ok (vs ++ [some [a]])
  | .clone p => do
    let l ← boxLink vs p
    return vs ++ [some (l.drop p.steps)]
  | .move p => do
    let l ← boxLink vs p
    return vs.set p.var (some (l.take p.steps)) ++ [some (l.drop p.steps)]
  | .assign p q => do
    let lp ← boxLink vs p
    let lq ← boxLink vs q
    if p.var = q.var then return vs.set p.var (some (lp.take p.steps))
    else return (vs.set p.var (some (lp.take p.steps ++ lq.drop q.steps))).set q.var (some (lq.take q.steps))
  | .emplace p a => do
    let l ← boxLink vs p
    return vs.set p.var (some (l.take p.steps ++ [a]))
  | .emplaceOwn p => do
    let l ← boxLink vs p
    match l[p.steps]? with
    | none => .error .die
    | some a => return vs.set p.var (some (l.take p.steps ++ [a]))
  | .write p a => do
    let l ← boxLink vs p
    if p.steps < l.length then return vs.set p.var (some (l.set p.steps a)) else .error .die
  | .leave v => do
    let _ ← boxLink vs ⟨v, 0⟩
    return vs.set v none

/-- A box is not assigned from within itself or into itself, and its value is not made from its value. -/
def boxLegal : Op α → Prop
  | .assign p q => p.var = q.var → p = q
  | .emplaceOwn _ => False
  | _ => True

/-- Programs on values. -/
def boxRun : List (Option (List α)) → List (Op α) → Res (List (Option (List α)))
  | vs, [] => .ok vs
  | vs, op :: r => do boxRun (← boxStep vs op) r

/-- `*p`: the datum behind a link. -/
def boxRead (vs : List (Option (List α))) (p : Path) : Res α := do
  let l ← boxLink vs p
  match l[p.steps]? with
  | some x => .ok x
  | none => .error .die

end Rpp.Spec
