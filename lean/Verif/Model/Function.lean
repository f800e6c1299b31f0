import Verif.Model.Mem

/-!
# `Function` (`rpp/function.h`)

A `Function` holds a closure of any type in place. `σ` is the state a closure captures, which calls may
change (`mutable`); `A` and `R` are the types of argument and result. The types of closures are numbered, and
`call` gives the code of each: `src->operator()` (`rpp/function.h:97-100`).

Types that are not trivially movable are modelled, for which `f_move` runs the move constructor
(`rpp/function.h:94`); for the others it copies the bytes, and there is nothing to destroy.
-/

namespace Rpp
namespace Fun

/-- `storage` (`rpp/function.h:102`): no object, a closure, or a closure that was moved from. A closure is known
by the number of its creation, which moves with what it captured. -/
inductive Cell (σ : Type) where
  | raw
  | obj (id ty : Nat) (st : σ)
  | husk (ty : Nat)
  deriving DecidableEq, Repr

/-- A `Function`: `storage` and `vtable`, the latter null or that of a type of closures
(`rpp/function.h:61-63`, `rpp/function.h:102-103`). -/
structure Fn (σ : Type) where
  cell : Cell σ
  vt : Option Nat
  deriving DecidableEq, Repr

/-- The variables (`none`: destroyed), how many closures the program created, how many objects of closure type
were constructed in `storage`, which closures were destroyed, and the results of the calls. -/
structure St (σ R : Type) where
  vars : List (Option (Fn σ))
  made : Nat
  built : Nat
  dtors : List Nat
  out : List R
  deriving DecidableEq, Repr

variable {σ A R : Type}

/-- Nothing yet. -/
def St.init : St σ R := ⟨[], 0, 0, [], []⟩

/-- `destruct()` (`rpp/function.h:67-73`): `f_destruct` runs the destructor of the type in the table on the
storage (84-88). -/
def destruct (f : Fn σ) : Res (Fn σ × List Nat) :=
  match f.vt with
  | none => .ok ({ f with vt := none }, [])
  | some t => match f.cell with
    | .obj id t' _ => if t = t' then .ok (⟨.raw, none⟩, [id]) else .error .ub
    | .husk _ => .ok (⟨.raw, none⟩, [])
    | .raw => .error .ub

/-- `move(dst)` (`rpp/function.h:74-77`, 89-96): a new object in the storage of `dst` is constructed from the
one here. It must not replace an object that was not destroyed. Returns both cells. -/
def moveTo (t : Nat) (src dst : Cell σ) : Res (Cell σ × Cell σ) :=
  match dst with
  | .obj _ _ _ => .error .leak
  | _ => match src with
    | .obj id t' st => if t = t' then .ok (.husk t', .obj id t' st) else .error .ub
    | .husk t' => if t = t' then .ok (.husk t', .husk t') else .error .ub
    | .raw => .error .ub

/-- What a program does with functions. -/
inductive Op (σ A : Type) where
  /-- `Function f{closure};` -/
  | make (ty : Nat) (st : σ)
  /-- `Function f = move(v);` -/
  | move (v : Nat)
  /-- `v = move(w);` -/
  | assign (v w : Nat)
  /-- `v(a);` -/
  | invoke (v : Nat) (a : A)
  /-- The end of the scope of a variable. -/
  | leave (v : Nat)
  deriving DecidableEq, Repr

/-- A variable in scope. -/
def St.get (s : St σ R) (v : Nat) : Res (Fn σ) :=
  match s.vars[v]? with
  | some (some f) => .ok f
  | _ => .error .ub

/-- The second part of the move assignment, after `destruct` left `f` in `v` (`rpp/function.h:41-43`). -/
def assignFrom (s : St σ R) (v w : Nat) (f : Fn σ) : Res (St σ R) := do
  let g ← s.get w
  match g.vt with
  | none =>
    let s := { s with vars := s.vars.set v (some { f with vt := none }) }
    let g ← s.get w
    return { s with vars := s.vars.set w (some { g with vt := none }) }
  | some t =>
    let (src, dst) ← moveTo t g.cell f.cell
    return { s with
      vars := (s.vars.set v (some ⟨dst, some t⟩)).set w (some ⟨src, none⟩)
      built := s.built + 1 }

/-- One operation. `call` gives the new captured state and the result. -/
def exec (call : Nat → σ → A → σ × R) (s : St σ R) : Op σ A → Res (St σ R)
  -- constructor (`rpp/function.h:22-26`, 56-66)
  | .make ty st =>
    .ok { s with
      vars := s.vars ++ [some ⟨.obj s.made ty st, some ty⟩]
      made := s.made + 1
      built := s.built + 1 }
  -- move constructor (`rpp/function.h:34-38`)
  | .move v => do
    let f ← s.get v
    match f.vt with
    | none => return { s with vars := s.vars.set v (some { f with vt := none }) ++ [some ⟨.raw, none⟩] }
    | some t =>
      let (src, dst) ← moveTo t f.cell .raw
      return { s with
        vars := s.vars.set v (some ⟨src, none⟩) ++ [some ⟨dst, some t⟩]
        built := s.built + 1 }
  -- move assignment (`rpp/function.h:39-45`)
  | .assign v w => do
    let f ← s.get v
    let (f, d) ← destruct f
    let s := { s with vars := s.vars.set v (some f), dtors := s.dtors ++ d }
    assignFrom s v w f
  -- `operator()` (`rpp/function.h:47-50`, 78-81)
  | .invoke v a => do
    let f ← s.get v
    match f.vt with
    | none => .error .die
    | some t => match f.cell with
      | .obj id t' st =>
        if t = t' then
          let (st, r) := call t st a
          return { s with vars := s.vars.set v (some ⟨.obj id t' st, some t⟩), out := s.out ++ [r] }
        else .error .ub
      | _ => .error .ub
  -- destructor (`rpp/function.h:27-29`)
  | .leave v => do
    let f ← s.get v
    let (_, d) ← destruct f
    return { s with vars := s.vars.set v none, dtors := s.dtors ++ d }

/-- Run a program. -/
def run (call : Nat → σ → A → σ × R) : St σ R → List (Op σ A) → Res (St σ R)
  | s, [] => .ok s
  | s, op :: r => do run call (← exec call s op) r

end Fun
end Rpp
