import Verif.Model.Mem
import Verif.Model.Word

/-!
# `Rc` (`rpp/rc.h:37-131`)

A program holds `Rc<T>` handles in variables, and in the values themselves: to have handles inside of
values (lists, trees), `T` is taken to be a record of some plain data and one field `Rc<T> next`.
Its destructor, generated by the compiler, destroys `next`.

Blocks (`Rc_Data<T>`) come from the allocator (`A::make`, `A::destroy`); accessing one that was
destroyed is undefined, and so is accessing a variable that does not exist (any more). The allocator is
taken to succeed, and the addresses of destroyed blocks not to be used again (they could be, but then an
access through a stale pointer would be undefined just the same).
-/

namespace Rpp
namespace Rc

/-- `Rc_Data<T>` with `T = { α value; Rc<T> next; }` (`rpp/rc.h:10-16`). A handle is the number of the block
it points to, or `none` for null. -/
structure Blk (α : Type) where
  refs : Nat
  val : α
  next : Option Nat
  deriving DecidableEq, Repr

/-- The variables of the program (`none`: destroyed), the blocks allocated so far (`none`: destroyed) and
the numbers of the blocks whose value was destructed, in order. -/
structure St (α : Type) where
  vars : List (Option (Option Nat))
  blks : List (Option (Blk α))
  dead : List Nat
  deriving DecidableEq, Repr

/-- Where a handle is: in a variable, or in the `next` field of a value. -/
inductive Loc where
  | var (i : Nat)
  | fld (b : Nat)
  deriving DecidableEq, Repr

variable {α : Type}

/-- Nothing allocated. -/
def St.init : St α := ⟨[], [], []⟩

/-- The block `b`, if it is alive. -/
def St.blk (s : St α) (b : Nat) : Option (Blk α) := (s.blks[b]?).join

/-- Overwrite block `b`. -/
def St.setBlk (s : St α) (b : Nat) (k : Option (Blk α)) : St α := { s with blks := s.blks.set b k }

/-- Read `data_` of the handle at a location. -/
def St.get (s : St α) : Loc → Res (Option Nat)
  | .var i => match s.vars[i]? with
    | some (some h) => .ok h
    | _ => .error .ub
  | .fld b => match s.blk b with
    | some k => .ok k.next
    | none => .error .ub

/-- Write `data_` of the handle at a location. -/
def St.set (s : St α) (l : Loc) (h : Option Nat) : Res (St α) :=
  match l with
  | .var i => match s.vars[i]? with
    | some (some _) => .ok { s with vars := s.vars.set i (some h) }
    | _ => .error .ub
  | .fld b => match s.blk b with
    | some k => .ok (s.setBlk b (some { k with next := h }))
    | none => .error .ub

/-- `A::destroy<Data>(data_)` of a block whose value was destructed; the log is the model's. -/
def St.free (s : St α) (b : Nat) : Res (St α) :=
  match s.blk b with
  | some _ => .ok { s.setBlk b none with dead := s.dead ++ [b] }
  | none => .error .ub

/-- The part of `drop()` between the test and `data_ = null` (`rpp/rc.h:120-124`), for a handle that points
to `b`. `value.destruct()` runs the destructor of `T`, which drops its `next` (`rpp/rc.h:42-44,118-126`). -/
def release : Nat → St α → Nat → Res (St α)
  | 0, _, _ => .error .hang
  | fuel + 1, s, b =>
    match s.blk b with
    | none => .error .ub
    | some k =>
      let s := s.setBlk b (some { k with refs := wsub k.refs 1 })
      if wsub k.refs 1 = 0 then
        match k.next with
        | none => s.free b
        | some c => do
          let s ← release fuel s c
          let s ← s.set (.fld b) none
          s.free b
      else .ok s

/-- `drop()` (`rpp/rc.h:118-126`) of the handle at `l`. -/
def drop (s : St α) (l : Loc) : Res (St α) := do
  match ← s.get l with
  | none => return s
  | some b =>
    let s ← release (s.blks.length + 1) s b
    s.set l none

/-- A path `v->next->next…`: a variable and a number of steps. -/
structure Path where
  var : Nat
  steps : Nat
  deriving DecidableEq, Repr

/-- The location a path denotes; `operator->` asserts that the handle is not null
(`rpp/rc.h:90-97`). -/
def locate (s : St α) (v : Nat) : Nat → Res Loc
  | 0 => match s.vars[v]? with
    | some (some _) => .ok (.var v)
    | _ => .error .ub
  | n + 1 => do
    let l ← locate s v n
    match ← s.get l with
    | none => .error .die
    | some b => match s.blk b with
      | some _ => .ok (.fld b)
      | none => .error .ub

/-- What a program does with handles. -/
inductive Op (α : Type) where
  /-- `Rc<T> x;` -/
  | null
  /-- `Rc<T> x{value};` -/
  | make (a : α)
  /-- `Rc<T> x = p.dup();` -/
  | dup (p : Path)
  /-- `Rc<T> x = Rc<T>::from_this(&*p);` -/
  | fromThis (p : Path)
  /-- `Rc<T> x = move(p);` -/
  | move (p : Path)
  /-- `p = move(q);` -/
  | assign (p q : Path)
  /-- `p.clear();` -/
  | clear (p : Path)
  /-- The end of the scope of a variable. -/
  | leave (v : Nat)
  deriving DecidableEq, Repr

/-- A new variable. -/
def St.declare (s : St α) (h : Option Nat) : St α := { s with vars := s.vars ++ [some h] }

/-- One operation: default constructor (line 41), constructor from arguments and `make` (46-59), `dup`
(72-77), `from_this` (61-67), move constructor (79-82), move assignment (83-88), `clear` (113-115),
destructor (42-44). -/
def exec (s : St α) : Op α → Res (St α)
  | .null => .ok (s.declare none)
  | .make a =>
    -- `A::make<Data>(1)`, then `value.construct(...)`
    .ok (St.declare { s with blks := s.blks ++ [some (Blk.mk 1 a none)] } (some s.blks.length))
  | .dup p => do
    let l ← locate s p.var p.steps
    match ← s.get l with
    | none => return s.declare none
    | some b => match s.blk b with
      | none => .error .ub
      | some k => return (s.setBlk b (some { k with refs := wadd k.refs 1 })).declare (some b)
  | .fromThis p => do
    let l ← locate s p.var p.steps
    match ← s.get l with
    | none => .error .die
    | some b => match s.blk b with
      | none => .error .ub
      | some k => return (s.setBlk b (some { k with refs := wadd k.refs 1 })).declare (some b)
  | .move p => do
    let l ← locate s p.var p.steps
    let h ← s.get l
    let s ← s.set l none
    return s.declare h
  | .assign p q => do
    let lp ← locate s p.var p.steps
    let lq ← locate s q.var q.steps
    let s ← drop s lp
    let h ← s.get lq
    let s ← s.set lp h
    s.set lq none
  | .clear p => do
    let l ← locate s p.var p.steps
    drop s l
  | .leave v => do
    let l ← locate s v 0
    let s ← drop s l
    return { s with vars := s.vars.set v none }

/-- `*p` read (`rpp/rc.h:98-105`). -/
def read (s : St α) (p : Path) : Res α := do
  let l ← locate s p.var p.steps
  match ← s.get l with
  | none => .error .die
  | some b => match s.blk b with
    | none => .error .ub
    | some k => .ok k.val

/-- `p.references()` (`rpp/rc.h:107-109`). -/
def references (s : St α) (p : Path) : Res Nat := do
  let l ← locate s p.var p.steps
  match ← s.get l with
  | none => .ok 0
  | some b => match s.blk b with
    | none => .error .ub
    | some k => .ok k.refs

end Rc
end Rpp
