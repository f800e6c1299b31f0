import Verif.Model.Variant

/-!
# What a program with variants means

A variable holds one alternative with some content (`none` after it was moved from).
-/

namespace Rpp
namespace VariantSpec
variable {V : Type}

/-- The variables that exist, with the alternative and content. -/
abbrev Env (V : Type) := Nat → Option (Nat × Option V)

/-- Change a variable. -/
def upd (e : Env V) (i : Nat) (o : Option (Nat × Option V)) : Env V := fun j => if j = i then o else e j

/-- What moving from a value leaves: plain data stays. -/
def leaves (plain : Nat → Bool) (x : Nat × Option V) : Nat × Option V := (x.1, if plain x.1 then x.2 else none)

/-- The meaning of an operation with `N` alternatives, some of which are plain data. -/
def step (N : Nat) (plain : Nat → Bool) (e : Env V) : Variant.Op V → Env V × Option (Variant.Out V)
  | .make i k v => match e i with
    | none => if k < N then (upd e i (some (k, some v)), none) else (e, none)
    | some _ => (e, none)
  | .moveNew i j => match e i, e j with
    | none, some x => (upd (upd e j (some (leaves plain x))) i (some x), none)
    | _, _ => (e, none)
  | .del i => (upd e i none, none)
  | .moveTo i j => match e i, e j with
    | some _, some x => (upd (upd e j (some (leaves plain x))) i (some x), none)
    | _, _ => (e, none)
  | .clone i j => match e i, e j with
    | none, some x => (upd e i (some x), none)
    | _, _ => (e, none)
  | .index i => match e i with
    | none => (e, none)
    | some x => (e, some (.index x.1))
  | .visit i => match e i with
    | none => (e, none)
    | some x => (e, some (.got x.1 x.2))
  | .visitMove i => match e i with
    | none => (e, none)
    | some x => (upd e i (some (leaves plain x)), some (.got x.1 x.2))

/-- The meaning of a program. -/
def run (N : Nat) (plain : Nat → Bool) : Env V → List (Variant.Op V) → Env V × List (Variant.Out V)
  | e, [] => (e, [])
  | e, p :: r =>
    let a := step N plain e p
    let b := run N plain a.1 r
    (b.1, a.2.toList ++ b.2)

/-- A variable holds the alternative `x.1` with the content `x.2`. -/
def Holds (o : Variant.Var V) (x : Nat × Option V) : Prop :=
  o.index = x.1 ∧ ∃ c, o.cell = some c ∧ c.alt = x.1 ∧ c.val = x.2

/-- Every variable holds what it should. -/
def Match (vars : Nat → Option (Variant.Var V)) (e : Env V) : Prop :=
  ∀ i, match vars i, e i with
    | none, none => True
    | some o, some x => Holds o x
    | _, _ => False

/-- The balance of the objects that have a destructor (`des`): each that was made is either destroyed, once, or in
exactly one variable. -/
structure Balance (des : Nat → Bool) (s : Variant.St V) : Prop where
  once : s.dead.Nodup
  dead : ∀ id ∈ s.dead, ∃ k, s.made[id]? = some k ∧ des k
  live : ∀ i o c, s.vars i = some o → o.cell = some c → des c.alt → s.made[c.id]? = some c.alt ∧ c.id ∉ s.dead
  one : ∀ i j o p c d, s.vars i = some o → s.vars j = some p → o.cell = some c → p.cell = some d → des c.alt →
    des d.alt → c.id = d.id → i = j
  all : ∀ id k, s.made[id]? = some k → des k →
    id ∈ s.dead ∨ ∃ i o c, s.vars i = some o ∧ o.cell = some c ∧ c.id = id ∧ c.alt = k

end VariantSpec
end Rpp
