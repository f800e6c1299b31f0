import Verif.Model.Mem

/-!
# `Opt<T>` (`rpp/opt.h:16-129`) over `Storage<T>` (`rpp/storage.h:16-84`)

A program with any number of `Opt<T>` variables. `Storage` is a cell that is raw (`none`) or holds a payload
object; every payload object has a number of its own, and the numbers of destroyed ones are recorded. The
content of a payload is `none` when it was moved from (`T.triv = false`; plain data stays). Operations
that name a variable that does not exist, or need a copyable `T`, cannot be written in C++ and do nothing here.
Allocation inside `T` is taken to succeed.
-/

namespace Rpp
namespace Opt
variable {V : Type}

/-- A payload object. -/
structure Obj (V : Type) where
  id : Nat
  val : Option V
  deriving DecidableEq, Repr

/-- The fields `ok_` and `value_` (`rpp/opt.h:128-129`). -/
structure Var (V : Type) where
  ok : Bool
  cell : Option (Obj V)
  deriving DecidableEq, Repr

/-- The variables; the next number of a payload, and the payloads that have been destroyed. -/
structure St (V : Type) where
  vars : Nat → Option (Var V)
  next : Nat
  dead : List Nat

/-- No variables yet. -/
def St.init : St V := ⟨fun _ => none, 0, []⟩

/-- Change variable `i`. -/
def St.set (s : St V) (i : Nat) (o : Option (Var V)) : St V :=
  { s with vars := fun j => if j = i then o else s.vars j }

/-- What an operation tells: `ok()`, or the content of a payload. -/
inductive Out (V : Type) where
  | flag (b : Bool)
  | val (v : Option V)
  deriving DecidableEq, Repr

/-- Operations on the variables `i` and `j`: default construction; `Opt{v}`; `Opt{move(j)}`; destruction; `i = move(j)`;
`i = v` for a temporary `v`; `i = move(*j)`; `emplace(v)`; `clear()`; copy construction and assignment;
construction from `j.clone()`; `ok()`; `*i`; `value_or(v)`. -/
inductive Op (V : Type) where
  | new (i : Nat)
  | make (i : Nat) (v : V)
  | moveNew (i j : Nat)
  | del (i : Nat)
  | moveTo (i j : Nat)
  | set (i : Nat) (v : V)
  | setFrom (i j : Nat)
  | emplace (i : Nat) (v : V)
  | clear (i : Nat)
  | copyNew (i j : Nat)
  | copyTo (i j : Nat)
  | clone (i j : Nat)
  | ok (i : Nat)
  | get (i : Nat)
  | valueOr (i : Nat) (v : V)
  deriving DecidableEq, Repr

/-- `value_.construct(v)` and `ok_ = true` (`rpp/storage.h:43-47`): an owning payload that is overwritten is lost. -/
def put (T : Traits) (s : St V) (i : Nat) (v : Option V) : Res (St V) :=
  match s.vars i with
  | none => .error .ub
  | some o =>
    if o.cell.isSome ∧ T.triv = false then .error .leak
    else .ok { (s.set i (some ⟨true, some ⟨s.next, v⟩⟩)) with next := s.next + 1 }

/-- `clear()` (`rpp/opt.h:81-86`). -/
def clear (T : Traits) (s : St V) (i : Nat) : Res (St V) :=
  match s.vars i with
  | none => .error .ub
  | some o =>
    if T.triv = false ∧ o.ok then
      match o.cell with
      | none => .error .ub
      | some c => .ok { (s.set i (some ⟨false, none⟩)) with dead := s.dead ++ [c.id] }
    else .ok (s.set i (some { o with ok := false }))

/-- Read `*value_` of variable `j`, leaving a moved-from payload behind when the type owns something. -/
def take (T : Traits) (s : St V) (j : Nat) : Res (Option V × St V) :=
  match s.vars j with
  | none => .error .ub
  | some o =>
    match o.cell with
    | none => .error .ub
    | some c =>
      .ok (c.val, if T.triv then s else s.set j (some { o with cell := some { c with val := none } }))

/-- The payload of `j`, if there is one, is moved into the empty `i` (`rpp/opt.h:43-49, 55-58`). -/
def moveInto (T : Traits) (s : St V) (i j : Nat) : Res (St V) :=
  match s.vars j with
  | none => .error .ub
  | some o =>
    if o.ok then do
      let (v, s) ← take T s j
      put T s i v
    else .ok s

/-- One operation. -/
def step (T : Traits) (s : St V) : Op V → Res (St V × Option (Out V))
  | .new i => match s.vars i with
    | some _ => .ok (s, none)
    | none => .ok (s.set i (some ⟨false, none⟩), none)
  | .make i v => match s.vars i with
    | some _ => .ok (s, none)
    | none => do
      let s ← put T (s.set i (some ⟨false, none⟩)) i (some v)
      .ok (s, none)
  | .moveNew i j => match s.vars i, s.vars j with
    | none, some _ => do
      let s ← moveInto T (s.set i (some ⟨false, none⟩)) i j
      .ok (s, none)
    | _, _ => .ok (s, none)
  | .del i => match s.vars i with
    | none => .ok (s, none)
    | some _ => do
      let s ← clear T s i
      match s.vars i with
      | some o =>
        -- the variable's storage goes away
        if o.cell.isSome ∧ T.triv = false then .error .leak else .ok (s.set i none, none)
      | none => .error .ub
  | .moveTo i j => match s.vars i, s.vars j with
    | some _, some _ => do
      let s ← clear T s i
      let s ← moveInto T s i j
      .ok (s, none)
    | _, _ => .ok (s, none)
  | .set i v => match s.vars i with
    | none => .ok (s, none)
    | some _ => do
      let s ← clear T s i
      let s ← put T s i (some v)
      .ok (s, none)
  | .setFrom i j => match s.vars i, s.vars j with
    | some _, some o =>
      -- `*j` asserts; `i` is cleared before the reference is used
      if o.ok then do
        let s ← clear T s i
        let (v, s) ← take T s j
        let s ← put T s i v
        .ok (s, none)
      else .error .die
    | _, _ => .ok (s, none)
  | .emplace i v => match s.vars i with
    | none => .ok (s, none)
    | some _ => do
      let s ← clear T s i
      let s ← put T s i (some v)
      .ok (s, none)
  | .clear i => match s.vars i with
    | none => .ok (s, none)
    | some _ => do
      let s ← clear T s i
      .ok (s, none)
  | .copyNew i j => match s.vars i, s.vars j with
    | none, some o => .ok (if T.triv then s.set i (some o) else s, none)
    | _, _ => .ok (s, none)
  | .copyTo i j => match s.vars i, s.vars j with
    | some _, some o => .ok (if T.triv then s.set i (some o) else s, none)
    | _, _ => .ok (s, none)
  | .clone i j => match s.vars i, s.vars j with
    | none, some o =>
      if o.ok then
        match o.cell with
        | none => .error .ub
        -- the temporary made by `T::clone` is moved into the new payload and destroyed
        | some c => do
          let s := s.set i (some ⟨false, none⟩)
          let s := { s with next := s.next + 1, dead := s.dead ++ [s.next] }
          let s ← put T s i c.val
          .ok (s, none)
      else .ok (s.set i (some ⟨false, none⟩), none)
    | _, _ => .ok (s, none)
  | .ok i => match s.vars i with
    | none => .ok (s, none)
    | some o => .ok (s, some (.flag o.ok))
  | .get i => match s.vars i with
    | none => .ok (s, none)
    | some o =>
      if o.ok then
        match o.cell with
        | none => .error .ub
        | some c => .ok (s, some (.val c.val))
      else .error .die
  | .valueOr i v => match s.vars i with
    | none => .ok (s, none)
    | some o =>
      if o.ok then
        match o.cell with
        | none => .error .ub
        | some c => .ok (s, some (.val c.val))
      else .ok (s, some (.val (some v)))

/-- Run a program and collect what it is told. -/
def run (T : Traits) : St V → List (Op V) → Res (St V × List (Out V))
  | s, [] => .ok (s, [])
  | s, p :: r => do
    let (s, o) ← step T s p
    let (s, os) ← run T s r
    .ok (s, o.toList ++ os)

end Opt
end Rpp
