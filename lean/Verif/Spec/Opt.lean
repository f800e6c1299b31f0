import Verif.Model.Opt

/-!
# What a program with optional values means

A variable holds nothing, or a payload with some content (`none` for one that was moved from).
-/

namespace Rpp
namespace OptSpec
variable {V : Type}

/-- The variables that exist, with what they hold. -/
abbrev Env (V : Type) := Nat → Option (Option (Option V))

/-- Change a variable. -/
def upd (e : Env V) (i : Nat) (o : Option (Option (Option V))) : Env V := fun j => if j = i then o else e j

/-- What a payload becomes when it is moved from. -/
def moved (triv : Bool) (x : Option V) : Option V := if triv then x else none

/-- The meaning of an operation: the new variables and what is told; `none` when the program is stopped because
it asks for a payload that does not exist. -/
def step (triv : Bool) (e : Env V) : Opt.Op V → Option (Env V × Option (Opt.Out V))
  | .new i => match e i with
    | none => some (upd e i (some none), none)
    | some _ => some (e, none)
  | .make i v => match e i with
    | none => some (upd e i (some (some (some v))), none)
    | some _ => some (e, none)
  | .moveNew i j => match e i, e j with
    | none, some none => some (upd e i (some none), none)
    | none, some (some x) => some (upd (upd e j (some (some (moved triv x)))) i (some (some x)), none)
    | _, _ => some (e, none)
  | .del i => some (upd e i none, none)
  | .moveTo i j => match e i, e j with
    -- moving a variable to itself leaves it empty
    | some _, some none => some (upd e i (some none), none)
    | some _, some (some x) =>
      if i = j then some (upd e i (some none), none)
      else some (upd (upd e j (some (some (moved triv x)))) i (some (some x)), none)
    | _, _ => some (e, none)
  | .set i v | .emplace i v => match e i with
    | none => some (e, none)
    | some _ => some (upd e i (some (some (some v))), none)
  | .setFrom i j => match e i, e j with
    | some _, some none => none
    | some _, some (some x) => some (upd (upd e j (some (some (moved triv x)))) i (some (some x)), none)
    | _, _ => some (e, none)
  | .clear i => match e i with
    | none => some (e, none)
    | some _ => some (upd e i (some none), none)
  | .copyNew i j => match e i, e j with
    | none, some x => some (if triv then upd e i (some x) else e, none)
    | _, _ => some (e, none)
  | .copyTo i j => match e i, e j with
    | some _, some x => some (if triv then upd e i (some x) else e, none)
    | _, _ => some (e, none)
  | .clone i j => match e i, e j with
    | none, some x => some (upd e i (some x), none)
    | _, _ => some (e, none)
  | .ok i => match e i with
    | none => some (e, none)
    | some o => some (e, some (.flag o.isSome))
  | .get i => match e i with
    | none => some (e, none)
    | some none => none
    | some (some x) => some (e, some (.val x))
  | .valueOr i v => match e i with
    | none => some (e, none)
    | some none => some (e, some (.val (some v)))
    | some (some x) => some (e, some (.val x))

/-- The meaning of a program. -/
def run (triv : Bool) : Env V → List (Opt.Op V) → Option (Env V × List (Opt.Out V))
  | e, [] => some (e, [])
  | e, p :: r => do
    let (e, o) ← step triv e p
    let (e, os) ← run triv e r
    pure (e, o.toList ++ os)

/-- A variable of the program against what it should hold: `ok_` tells whether there is a payload, and an owning
payload exists in the storage exactly when it should. -/
def Holds (triv : Bool) (o : Opt.Var V) : Option (Option V) → Prop
  | none => o.ok = false ∧ (triv = false → o.cell = none)
  | some x => o.ok = true ∧ ∃ c, o.cell = some c ∧ c.val = x

/-- Every variable holds what it should. -/
def Match (triv : Bool) (vars : Nat → Option (Opt.Var V)) (e : Env V) : Prop :=
  ∀ i, match vars i, e i with
    | none, none => True
    | some o, some x => Holds triv o x
    | _, _ => False

/-- The balance of payload objects: every object that was made is either destroyed, once, or in exactly one
variable. -/
structure Balance (s : Opt.St V) : Prop where
  once : s.dead.Nodup
  made : ∀ id ∈ s.dead, id < s.next
  live : ∀ i o c, s.vars i = some o → o.cell = some c → c.id < s.next ∧ c.id ∉ s.dead
  one : ∀ i j o p c d, s.vars i = some o → s.vars j = some p → o.cell = some c → p.cell = some d →
    c.id = d.id → i = j
  all : ∀ id, id < s.next → id ∈ s.dead ∨ ∃ i o c, s.vars i = some o ∧ o.cell = some c ∧ c.id = id

end OptSpec
end Rpp
