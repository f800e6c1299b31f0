import Verif.Model.Mem

/-!
# `Variant<Ts...>` (`rpp/variant.h:30-203`)

A program with any number of variables of one `Variant` type with `N` alternatives. The bytes `data_` hold no
object (`none`) or an object of one of the alternatives; using it as another alternative is undefined.
Each object has a number of its own. The content of an object is `none` when it was moved from. Operations that
name a variable that does not exist cannot be written in C++ and do nothing here.
-/

namespace Rpp
namespace Variant
variable {V : Type}

/-- What the code asks about an alternative: `Must_Destruct` and `Trivially_Movable` (`rpp/utility.h:519-526`). A
trivially movable type is taken to be trivially copyable as well, and the other way round. -/
structure Alt where
  md : Bool
  tm : Bool
  deriving DecidableEq, Repr

/-- An object in the bytes of a variant. -/
structure Obj (V : Type) where
  alt : Nat
  id : Nat
  val : Option V
  deriving DecidableEq, Repr

/-- The fields `index_` and `data_` (`rpp/variant.h:146-147`). -/
structure Var (V : Type) where
  index : Nat
  cell : Option (Obj V)
  deriving DecidableEq, Repr

/-- `INVALID` (`rpp/variant.h:118`). -/
def invalid : Nat := 255

/-- A variant under construction. -/
def Var.raw : Var V := ⟨invalid, none⟩

/-- The variables; the alternatives of all objects made so far; the objects that were destroyed. -/
structure St (V : Type) where
  vars : Nat → Option (Var V)
  made : List Nat
  dead : List Nat

/-- No variables yet. -/
def St.init : St V := ⟨fun _ => none, [], []⟩

/-- Change variable `i`. -/
def St.set (s : St V) (i : Nat) (o : Option (Var V)) : St V :=
  { s with vars := fun j => if j = i then o else s.vars j }

/-- The branches of `apply` for at most eight alternatives (`rpp/variant.h:161-176`): `INDEX(7)` to `INDEX(1)`. -/
def branch (N index : Nat) : Nat → Nat
  | 0 => 0
  | n + 1 => if N > n + 1 ∧ index = n + 1 then n + 1 else branch N index n

/-- `Accessors::apply` (`rpp/variant.h:165-199`): the alternative whose code is called; `none` for an access beyond the
table. -/
def dispatch (N index : Nat) : Option Nat :=
  if N ≤ 8 then some (branch N index 7) else if index < N then some index else none

/-- `apply_one` (`rpp/variant.h:186-190`): the bytes used as an object of alternative `k`. -/
def view (o : Var V) (k : Nat) : Res (Obj V) :=
  match o.cell with
  | none => .error .ub
  | some c => if c.alt = k then .ok c else .error .ub

/-- `apply` on a variable: the alternative called and the object it gets. -/
def apply (A : List Alt) (o : Var V) : Res (Nat × Obj V) :=
  match dispatch A.length o.index with
  | none => .error .ub
  | some k => do
    let c ← view o k
    .ok (k, c)

/-- `Must_Destruct` of alternative `k`. -/
def md (A : List Alt) (k : Nat) : Bool := (A[k]?.map (·.md)).getD false
/-- `Trivially_Movable` of alternative `k`. -/
def tm (A : List Alt) (k : Nat) : Bool := (A[k]?.map (·.tm)).getD false

/-- An object that still has to be destroyed is in the bytes. -/
def owned (A : List Alt) (o : Var V) : Bool :=
  match o.cell with
  | none => false
  | some c => md A c.alt

/-- `construct` (`rpp/variant.h:120-127`): an object that is overwritten is lost. -/
def put (A : List Alt) (s : St V) (i k : Nat) (v : Option V) : Res (St V) :=
  match s.vars i with
  | none => .error .ub
  | some o =>
    if owned A o then .error .leak
    else .ok { (s.set i (some ⟨k, some ⟨k, s.made.length, v⟩⟩)) with made := s.made ++ [k] }

/-- `destruct` (`rpp/variant.h:129-141`). -/
def destruct (A : List Alt) (s : St V) (i : Nat) : Res (St V) :=
  match s.vars i with
  | none => .error .ub
  | some o =>
    if A.any (·.md) ∧ o.index ≠ invalid then do
      let (k, c) ← apply A o
      if md A k then
        .ok { (s.set i (some ⟨invalid, none⟩)) with dead := s.dead ++ [c.id] }
      else .ok (s.set i (some { o with index := invalid }))
    else .ok (s.set i (some { o with index := invalid }))

/-- What moving from an object leaves in it. -/
def left (A : List Alt) (k : Nat) (v : Option V) : Option V := if tm A k then v else none

/-- Use the object of `j` as an rvalue: the alternative, its content, and the state with the object moved from. -/
def take (A : List Alt) (s : St V) (j : Nat) : Res ((Nat × Option V) × St V) :=
  match s.vars j with
  | none => .error .ub
  | some o => do
    let (k, c) ← apply A o
    .ok ((k, c.val), s.set j (some { o with cell := some { c with val := left A k c.val } }))

/-- The bytes of `j` copied to `i` (`rpp/variant.h:53-55, 65-67, 77-80`). -/
def bytes (A : List Alt) (s : St V) (i j : Nat) : Res (St V) :=
  match s.vars i, s.vars j with
  | some o, some p =>
    if owned A o then .error .leak
    else
      match p.cell with
      | none => .ok (s.set i (some p))
      | some c =>
        .ok { (s.set i (some ⟨p.index, some { c with id := s.made.length }⟩)) with made := s.made ++ [c.alt] }
  | _, _ => .error .ub

/-- The second part of the move constructor and of move assignment (`rpp/variant.h:53-58, 65-70`). -/
def moveInto (A : List Alt) (s : St V) (i j : Nat) : Res (St V) :=
  if A.all (·.tm) then bytes A s i j
  else do
    let ((k, v), s) ← take A s j
    put A s i k v

/-- Operations on the variables `i` and `j`: construction from a value of alternative `k`; `Variant{move(j)}`; destruction;
`i = move(j)`; construction from `j.clone()`; `index()`; `match` with a handler that reports which alternative it was
called for and the content; `match` of an rvalue with a handler that visitMove the content. Assignment of a plain
value constructs a variant, moves it and destroys it. -/
inductive Op (V : Type) where
  | make (i k : Nat) (v : V)
  | moveNew (i j : Nat)
  | del (i : Nat)
  | moveTo (i j : Nat)
  | clone (i j : Nat)
  | index (i : Nat)
  | visit (i : Nat)
  | visitMove (i : Nat)
  deriving DecidableEq, Repr

/-- What is told: `index()`, or the alternative and content a handler got. -/
inductive Out (V : Type) where
  | index (k : Nat)
  | got (k : Nat) (v : Option V)
  deriving DecidableEq, Repr

/-- One operation. -/
def step (A : List Alt) (s : St V) : Op V → Res (St V × Option (Out V))
  | .make i k v => match s.vars i with
    | some _ => .ok (s, none)
    | none =>
      if k < A.length then do
        let s ← put A (s.set i (some .raw)) i k (some v)
        .ok (s, none)
      else .ok (s, none)
  | .moveNew i j => match s.vars i, s.vars j with
    | none, some _ => do
      let s ← moveInto A (s.set i (some .raw)) i j
      .ok (s, none)
    | _, _ => .ok (s, none)
  | .del i => match s.vars i with
    | none => .ok (s, none)
    | some _ => do
      let s ← destruct A s i
      match s.vars i with
      | some o =>
        -- the variable's bytes go away
        if owned A o then .error .leak else .ok (s.set i none, none)
      | none => .error .ub
  | .moveTo i j => match s.vars i, s.vars j with
    | some _, some _ => do
      let s ← destruct A s i
      let s ← moveInto A s i j
      .ok (s, none)
    | _, _ => .ok (s, none)
  | .clone i j => match s.vars i, s.vars j with
    | none, some o =>
      if A.all (·.tm) then do
        let s ← bytes A (s.set i (some .raw)) i j
        .ok (s, none)
      else do
        let (k, c) ← apply A o
        -- the temporary made by `clone` or by copying is moved into the new variant and destroyed
        let s := s.set i (some .raw)
        let s := { s with made := s.made ++ [k], dead := if md A k then s.dead ++ [s.made.length] else s.dead }
        let s ← put A s i k c.val
        .ok (s, none)
    | _, _ => .ok (s, none)
  | .index i => match s.vars i with
    | none => .ok (s, none)
    | some o => if o.index = invalid then .error .die else .ok (s, some (.index o.index))
  | .visit i => match s.vars i with
    | none => .ok (s, none)
    | some o => do
      let (k, c) ← apply A o
      .ok (s, some (.got k c.val))
  | .visitMove i => match s.vars i with
    | none => .ok (s, none)
    | some _ => do
      let ((k, v), s) ← take A s i
      .ok (s, some (.got k v))

/-- Run a program and collect what it is told. -/
def run (A : List Alt) : St V → List (Op V) → Res (St V × List (Out V))
  | s, [] => .ok (s, [])
  | s, p :: r => do
    let (s, o) ← step A s p
    let (s, os) ← run A s r
    .ok (s, o.toList ++ os)

end Variant
end Rpp
