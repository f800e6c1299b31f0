import Verif.Model.Mem

/-!
# Specification: containers inside of containers, as values

The types that are built from numbers with `Vec`, `Box`, `Opt` and `Pair`, the values of these types as trees, and small programs over
variables of these types as functions on trees: no addresses, no ownership. What a program does to an object that it moves from or assigns
to itself is part of this.
-/

namespace Rpp.Nested
open Rpp

/-- `u64`, `Vec<T>`, `Box<T>`, `Opt<T>`, `Pair<A, B>`. -/
inductive Ty where
  | num
  | vec (t : Ty)
  | box (t : Ty)
  | opt (t : Ty)
  | pair (a b : Ty)
  deriving DecidableEq, Repr

/-- Values. -/
inductive Tree where
  | num (n : Nat)
  | vec (l : List Tree)
  | box (o : Option Tree)
  | opt (o : Option Tree)
  | pair (x y : Tree)

/-- One step from an object to a part of it: `x[i]`, `*x` of a box, `*x` of an `Opt`, `x.first`, `x.second`. -/
inductive Acc where
  | idx (i : Nat)
  | deref
  | val
  | fst
  | snd
  deriving DecidableEq, Repr

/-- A part of a variable. -/
structure Place where
  var : Nat
  path : List Acc
  deriving DecidableEq, Repr

/-- How an object `q` is moved to another one. -/
inductive Kind where
  /-- `p.push(move(q))` -/
  | push
  /-- `p.emplace(move(q))` of a box -/
  | emplace
  /-- `p = move(q)` where `p` is an `Opt` of the type of `q` -/
  | wrap
  /-- `p = move(q)` where both have the same type -/
  | assign
  deriving DecidableEq, Repr

/-- What a program does. -/
inductive Op where
  /-- `T x{};` -/
  | decl (t : Ty)
  /-- `p = n;` -/
  | num (p : Place) (n : Nat)
  /-- Move `q` to `p`. -/
  | give (k : Kind) (p q : Place)
  /-- `p = q.clone();` -/
  | clone (p q : Place)
  /-- `p.pop();` -/
  | pop (p : Place)
  /-- `p.clear();` of a vector -/
  | clear (p : Place)
  /-- The end of the scope of a variable. -/
  | leave (x : Nat)
  deriving DecidableEq, Repr

/-- The type of a part. -/
def Ty.at : Ty → List Acc → Option Ty
  | t, [] => some t
  | .vec t, .idx _ :: p => t.at p
  | .box t, .deref :: p => t.at p
  | .opt t, .val :: p => t.at p
  | .pair a _, .fst :: p => a.at p
  | .pair _ b, .snd :: p => b.at p
  | _, _ :: _ => none

/-- The type of what an object of type `t` is moved to. -/
def Kind.target : Kind → Ty → Ty
  | .push, t => .vec t
  | .emplace, t => .box t
  | .wrap, t => .opt t
  | .assign, t => t

/-- The type of a place among variables with types. -/
def typeOf {β : Type} (vs : List (Option (Ty × β))) (p : Place) : Option Ty :=
  match vs[p.var]? with
  | some (some (t, _)) => t.at p.path
  | _ => none

/-- `T{}`. -/
def dflt : Ty → Tree
  | .num => .num 0
  | .vec _ => .vec []
  | .box _ => .box none
  | .opt _ => .opt none
  | .pair a b => .pair (dflt a) (dflt b)

/-- What is left of an object that was moved from: an empty vector, a null box; an `Opt` keeps a moved-from value. -/
def moved : Ty → Tree → Tree
  | .vec _, _ => .vec []
  | .box _, _ => .box none
  | .opt t, .opt o => .opt (o.map (moved t))
  | .pair a b, .pair x y => .pair (moved a x) (moved b y)
  | _, T => T

/-- What is left of an object that was destroyed, or assigned to itself: nothing but numbers. -/
def emptied : Ty → Tree → Tree
  | .vec _, _ => .vec []
  | .box _, _ => .box none
  | .opt _, _ => .opt none
  | .pair a b, .pair x y => .pair (emptied a x) (emptied b y)
  | _, T => T

/-- The part of a value; the program ends if an index is too large, a box is null or an `Opt` is empty. -/
def Tree.get : Tree → List Acc → Res Tree
  | T, [] => .ok T
  | .vec l, .idx i :: p => match l[i]? with
    | some T => T.get p
    | none => .error .die
  | .box o, .deref :: p => match o with
    | some T => T.get p
    | none => .error .die
  | .opt o, .val :: p => match o with
    | some T => T.get p
    | none => .error .die
  | .pair x _, .fst :: p => x.get p
  | .pair _ y, .snd :: p => y.get p
  | _, _ :: _ => .error .ub

/-- The value with a part replaced. -/
def Tree.set (new : Tree) : Tree → List Acc → Tree
  | _, [] => new
  | .vec l, .idx i :: p => match l[i]? with
    | some T => .vec (l.set i (Tree.set new T p))
    | none => .vec l
  | .box (some T), .deref :: p => .box (some (Tree.set new T p))
  | .opt (some T), .val :: p => .opt (some (Tree.set new T p))
  | .pair x y, .fst :: p => .pair (Tree.set new x p) y
  | .pair x y, .snd :: p => .pair x (Tree.set new y p)
  | T, _ :: _ => T

/-- The variables: type and value; `none` once out of scope. -/
abbrev Vals := List (Option (Ty × Tree))

/-- The value at a place. -/
def look (σ : Vals) (p : Place) : Res Tree :=
  match σ[p.var]? with
  | some (some (_, T)) => T.get p.path
  | _ => .error .ub

/-- Replace the value at a place. -/
def put (σ : Vals) (p : Place) (new : Tree) : Vals :=
  match σ[p.var]? with
  | some (some (t, T)) => σ.set p.var (some (t, Tree.set new T p.path))
  | _ => σ

/-- What `p` is after `q` has been moved there. -/
def Kind.result : Kind → Tree → Tree → Tree
  | .push, .vec l, T => .vec (l ++ [T])
  | .emplace, _, T => .box (some T)
  | .wrap, _, T => .opt (some T)
  | _, _, T => T

/-- One operation on values. Operations that do not type-check are skipped. -/
def valStep (σ : Vals) : Op → Res Vals
  | .decl t => .ok (σ ++ [some (t, dflt t)])
  | .num p n =>
    if typeOf σ p = some .num then do
      let _ ← look σ p
      return put σ p (.num n)
    else .ok σ
  | .give k p q =>
    match typeOf σ q with
    | some t =>
      if typeOf σ p = some (k.target t) then do
        let x ← look σ p
        let y ← look σ q
        if p = q then return put σ p (emptied t x)
        return put (put σ q (moved t y)) p (k.result x y)
      else .ok σ
    | none => .ok σ
  | .clone p q =>
    match typeOf σ q with
    | some t =>
      if typeOf σ p = some t then do
        let _ ← look σ p
        let y ← look σ q
        return put σ p y
      else .ok σ
    | none => .ok σ
  | .pop p =>
    match typeOf σ p with
    | some (.vec _) => do
      match ← look σ p with
      | .vec l => if l.isEmpty then .error .die else return put σ p (.vec l.dropLast)
      | _ => .error .ub
    | _ => .ok σ
  | .clear p =>
    match typeOf σ p with
    | some (.vec _) => do
      let _ ← look σ p
      return put σ p (.vec [])
    | _ => .ok σ
  | .leave x => .ok (σ.set x none)

/-- A program on values. -/
def valRun (σ : Vals) : List Op → Res Vals
  | [] => .ok σ
  | op :: ops => do
    let σ ← valStep σ op
    valRun σ ops

/-- An object is not put into something that it is a part of. (Assignments need no condition: no object contains another one of the same
type.) -/
def Op.legal : Op → Prop
  | .give k p q => k = .assign ∨ ¬ (p.var = q.var ∧ p.path <+: q.path)
  | _ => True

end Rpp.Nested
