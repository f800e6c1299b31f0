import Verif.Model.Mem

/-!
# `Box` (`rpp/box.h`)

A program holds `Box<T>` handles in variables, and in the values themselves: to have boxes inside of
values (lists), `T` is taken to be a record of some plain data and one field `Box<T> next`. Its
destructor, generated by the compiler, destroys `next`; its `clone` clones both.

The allocator (`A::make<T>`, `A::destroy<T>`) is taken to succeed and not to use the addresses of destroyed
blocks again: an access through a stale pointer is undefined either way.
-/

namespace Rpp
namespace BoxM

/-- A value `T = { α value; Box<T> next; }` on the heap. A box is the number of the block it points to, or
`none` for null (`rpp/box.h:107`). -/
structure Blk (α : Type) where
  val : α
  next : Option Nat
  deriving DecidableEq, Repr

/-- The variables of the program (`none`: destroyed), the blocks allocated so far (`none`: destroyed) and
the blocks destroyed, in order. -/
structure St (α : Type) where
  vars : List (Option (Option Nat))
  blks : List (Option (Blk α))
  dead : List Nat
  deriving DecidableEq, Repr

/-- Where a box is: in a variable, or in the `next` field of a value. -/
inductive Loc where
  | var (i : Nat)
  | fld (b : Nat)
  deriving DecidableEq, Repr

variable {α : Type}

/-- Nothing allocated. -/
def St.init : St α := ⟨[], [], []⟩

/-- The block `b`, if it is alive. -/
def St.blk (s : St α) (b : Nat) : Option (Blk α) := (s.blks[b]?).join

/-- Overwrite block `b`. -/
def St.setBlk (s : St α) (b : Nat) (k : Option (Blk α)) : St α := { s with blks := s.blks.set b k }

/-- Read `data_` of the box at a location. -/
def St.get (s : St α) : Loc → Res (Option Nat)
  | .var i => match s.vars[i]? with
    | some (some h) => .ok h
    | _ => .error .ub
  | .fld b => match s.blk b with
    | some k => .ok k.next
    | none => .error .ub

/-- Write `data_` of the box at a location. -/
def St.set (s : St α) (l : Loc) (h : Option Nat) : Res (St α) :=
  match l with
  | .var i => match s.vars[i]? with
    | some (some _) => .ok { s with vars := s.vars.set i (some h) }
    | _ => .error .ub
  | .fld b => match s.blk b with
    | some k => .ok (s.setBlk b (some { k with next := h }))
    | none => .error .ub

/-- The storage of a destroyed value goes back to the allocator. -/
def St.free (s : St α) (b : Nat) : Res (St α) :=
  match s.blk b with
  | some _ => .ok { s.setBlk b none with dead := s.dead ++ [b] }
  | none => .error .ub

/-- `A::destroy<T>(data_)` (`rpp/box.h:51`): the destructor of the value, which destroys the box inside, then
the storage. -/
def destroy : Nat → St α → Nat → Res (St α)
  | 0, _, _ => .error .hang
  | fuel + 1, s, b =>
    match s.blk b with
    | none => .error .ub
    | some k =>
      match k.next with
      | none => s.free b
      | some c => do
        let s ← destroy fuel s c
        let s ← s.set (.fld b) none
        s.free b

/-- `~Box()` (`rpp/box.h:49-54`) of the box at `l`. -/
def dtor (s : St α) (l : Loc) : Res (St α) := do
  match ← s.get l with
  | none => return s
  | some b =>
    let s ← destroy (s.blks.length + 1) s b
    s.set l none

/-- `A::make<T>(value)`: a new block. -/
def alloc (s : St α) (a : α) (next : Option Nat) : St α × Nat :=
  ({ s with blks := s.blks ++ [some ⟨a, next⟩] }, s.blks.length)

/-- A path `v->next->next…`: a variable and a number of steps. -/
structure Path where
  var : Nat
  steps : Nat
  deriving DecidableEq, Repr

/-- The location a path denotes; `operator->` asserts that the box is not null (`rpp/box.h:84-91`). -/
def locate (s : St α) (v : Nat) : Nat → Res Loc
  | 0 => match s.vars[v]? with
    | some (some _) => .ok (.var v)
    | _ => .error .ub
  | n + 1 => do
    let l ← locate s v n
    match ← s.get l with
    | none => .error .die
    | some b => match s.blk b with
      | some _ => .ok (.fld b)
      | none => .error .ub

/-- `clone()` (`rpp/box.h:65-76`) of a box that is `h`: a copy of the value, whose box is cloned in turn. -/
def clone : Nat → St α → Option Nat → Res (St α × Option Nat)
  | _, s, none => .ok (s, none)
  | 0, _, some _ => .error .hang
  | fuel + 1, s, some b =>
    match s.blk b with
    | none => .error .ub
    | some k => do
      let (s, n) ← clone fuel s k.next
      let (s, b) := alloc s k.val n
      return (s, some b)

/-- What a program does with boxes. -/
inductive Op (α : Type) where
  /-- `Box<T> x;` -/
  | null
  /-- `Box<T> x{value};` -/
  | make (a : α)
  /-- `Box<T> x = p.clone();` -/
  | clone (p : Path)
  /-- `Box<T> x = move(p);` -/
  | move (p : Path)
  /-- `p = move(q);` -/
  | assign (p q : Path)
  /-- `p.emplace(value);` -/
  | emplace (p : Path) (a : α)
  /-- `p.emplace(p->value);`, the argument a reference into the box -/
  | emplaceOwn (p : Path)
  /-- `p->value = a;` -/
  | write (p : Path) (a : α)
  /-- The end of the scope of a variable. -/
  | leave (v : Nat)
  deriving DecidableEq, Repr

/-- A new variable. -/
def St.declare (s : St α) (h : Option Nat) : St α := { s with vars := s.vars ++ [some h] }

/-- One operation: constructors (`rpp/box.h:12-24`), `make` (56-63), `clone` (65-76), move constructor
(38-41), move assignment (42-47), `emplace` (78-82), access (84-100), destructor (49-54). -/
def exec (s : St α) : Op α → Res (St α)
  | .null => .ok (s.declare none)
  | .make a =>
    let (s, b) := alloc s a none
    .ok (s.declare (some b))
  | .clone p => do
    let l ← locate s p.var p.steps
    let h ← s.get l
    let (s, h) ← clone (s.blks.length + 1) s h
    return s.declare h
  | .move p => do
    let l ← locate s p.var p.steps
    let h ← s.get l
    let s ← s.set l none
    return s.declare h
  | .assign p q => do
    let lp ← locate s p.var p.steps
    let lq ← locate s q.var q.steps
    let s ← dtor s lp
    let h ← s.get lq
    let s ← s.set lp h
    s.set lq none
  | .emplace p a => do
    let l ← locate s p.var p.steps
    let s ← dtor s l
    let (s, b) := alloc s a none
    s.set l (some b)
  | .emplaceOwn p => do
    let l ← locate s p.var p.steps
    match ← s.get l with
    | none => .error .die
    | some c =>
      let s ← dtor s l
      -- the argument is read when the new value is constructed
      match s.blk c with
      | none => .error .ub
      | some k =>
        let (s, b) := alloc s k.val none
        s.set l (some b)
  | .write p a => do
    let l ← locate s p.var p.steps
    match ← s.get l with
    | none => .error .die
    | some b => match s.blk b with
      | none => .error .ub
      | some k => return s.setBlk b (some { k with val := a })
  | .leave v => do
    let l ← locate s v 0
    let s ← dtor s l
    return { s with vars := s.vars.set v none }

/-- `*p` read (`rpp/box.h:93-100`). -/
def read (s : St α) (p : Path) : Res α := do
  let l ← locate s p.var p.steps
  match ← s.get l with
  | none => .error .die
  | some b => match s.blk b with
    | none => .error .ub
    | some k => .ok k.val

/-- Run a program. -/
def run : St α → List (Op α) → Res (St α)
  | s, [] => .ok s
  | s, op :: r => do run (← exec s op) r

end BoxM
end Rpp
