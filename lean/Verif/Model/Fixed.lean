import Verif.Model.Hash

/-!
# Tuples, pairs, arrays and `swap`

Objects of element types have a number, given in the order of construction, and a value, which is gone after a
move. The ledger records what was constructed and destroyed. Sources: `rpp/tuple.h`, `rpp/pair.h`, `rpp/array.h`,
`rpp/utility.h:630-642`.

Simplifications: all elements have one type of values `V`, so that a tuple is a list of objects that is taken
apart as the templates do it; an element type obeys the usual contract of constructors, `clone` and moves (a
move hands over the value; what the target owned is released by its assignment).
-/

namespace Rpp.Fixed

/-- An object of an element type: where it is, and its value (`none` after a move). -/
structure Obj (V : Type) where
  id : Nat
  val : Option V
  deriving DecidableEq, Repr

/-- The number of objects constructed so far and those destroyed. -/
structure Ledger where
  next : Nat
  dead : List Nat
  deriving DecidableEq, Repr

/-- Code that constructs and destroys elements. -/
abbrev L (β : Type) := StateT Ledger Res β

variable {V : Type}

/-- A constructor runs. -/
def mk (v : Option V) : L (Obj V) := fun s => .ok (⟨s.next, v⟩, { s with next := s.next + 1 })

/-- A destructor runs; undefined for an object already destroyed. -/
def dtor (o : Obj V) : L Unit := fun s =>
  if o.id ∈ s.dead then .error .ub else .ok ((), { s with dead := s.dead ++ [o.id] })

/-- `o.clone()` or `T{o}`; undefined for a destroyed object. -/
def copy (o : Obj V) : L (Obj V) := fun s =>
  if o.id ∈ s.dead then .error .ub else mk o.val s

/-- `T{move(o)}`: the new object and what is left of `o`. -/
def moveNew (o : Obj V) : L (Obj V × Obj V) := fun s =>
  if o.id ∈ s.dead then .error .ub else (mk o.val s).map (fun r => ((r.1, { o with val := none }), r.2))

/-- `d = move(o)` for different objects. -/
def moveTo (d o : Obj V) : L (Obj V × Obj V) := fun s =>
  if o.id ∈ s.dead ∨ d.id ∈ s.dead then .error .ub
  else .ok (({ d with val := o.val }, { o with val := none }), s)

/-! ## `Tuple` (`rpp/tuple.h`) -/

/-- `Tuple<>` (`rpp/tuple.h:14-38`) and `Tuple<T, Ts...>` with its members `first` and `rest`
(`rpp/tuple.h:40-129`). -/
inductive Tup (V : Type) where
  | nil
  | cons (first : Obj V) (rest : Tup V)
  deriving DecidableEq

/-- The constructors from elements (`rpp/tuple.h:47-69`): `first` from the first argument, by copy from an lvalue and
by move from an rvalue (`true`), then `rest` from the others. The arguments are given back as they are afterwards. -/
def Tup.make : List (Bool × Obj V) → L (Tup V × List (Obj V))
  | [] => pure (.nil, [])
  | (true, o) :: args => do
    let (f, o) ← moveNew o
    let (r, os) ← Tup.make args
    return (.cons f r, o :: os)
  | (false, o) :: args => do
    let f ← copy o
    let (r, os) ← Tup.make args
    return (.cons f r, o :: os)

/-- The defaulted move constructor (`rpp/tuple.h:80`): member by member. -/
def Tup.moveNew : Tup V → L (Tup V × Tup V)
  | .nil => pure (.nil, .nil)
  | .cons f r => do
    let (f', f) ← Fixed.moveNew f
    let (r', r) ← r.moveNew
    return (.cons f' r', .cons f r)

/-- The defaulted destructor (`rpp/tuple.h:71`): members in reverse order. -/
def Tup.dtor : Tup V → L Unit
  | .nil => pure ()
  | .cons f r => do r.dtor; Fixed.dtor f

/-- `clone` (`rpp/tuple.h:87-96`): `Tuple{first.clone(), rest.clone()}` or `Tuple{T{first}, rest.clone()}`; the two
temporaries are moved into the members (`rpp/tuple.h:53-57`) and destroyed in reverse order. -/
def Tup.clone : Tup V → L (Tup V)
  | .nil => pure .nil
  | .cons f r => do
    let a ← copy f
    let b ← r.clone
    let (f', a) ← Fixed.moveNew a
    let (r', b) ← b.moveNew
    b.dtor
    Fixed.dtor a
    return .cons f' r'

/-- `get<Index>` (`rpp/tuple.h:98-111`); `none`: does not compile. -/
def Tup.get : Tup V → Nat → Option (Obj V)
  | .nil, _ => none
  | .cons f r, index => if index = 0 then some f else r.get (index - 1)

/-- Assignment of a value through the reference `get<Index>` returns. -/
def Tup.put : Tup V → Nat → V → Tup V
  | .nil, _, _ => .nil
  | .cons f r, index, v => if index = 0 then .cons { f with val := some v } r else .cons f (r.put (index - 1) v)

/-- `length` (`rpp/tuple.h:27-28,83-84`). -/
def Tup.length : Tup V → Nat
  | .nil => 0
  | .cons _ r => 1 + r.length

/-- `invoke` (`rpp/tuple.h:31-34,113-122`): `f(get<Is>()...)` for the index sequence 0 .. length - 1. -/
def Tup.invoke {R : Type} (t : Tup V) (f : List (Obj V) → R) : Option R :=
  match t with
  | .nil => some (f [])
  | .cons _ _ => ((List.range t.length).mapM t.get).map f

/-! ## `Pair` (`rpp/pair.h`) -/

/-- `Pair::clone` (`rpp/pair.h:49-62`); `ca`, `cb`: `Clone<A>`, `Clone<B>`. A member that is cloned is a temporary that
is moved into the pair (`rpp/pair.h:17-35`), one that is copied is constructed in place. -/
def pairClone (ca cb : Bool) (p : Obj V × Obj V) : L (Obj V × Obj V) :=
  match ca, cb with
  | true, true => do
    let a ← copy p.1
    let b ← copy p.2
    let (x, a) ← moveNew a
    let (y, b) ← moveNew b
    dtor b
    dtor a
    return (x, y)
  | true, false => do
    let a ← copy p.1
    let (x, a) ← moveNew a
    let y ← copy p.2
    dtor a
    return (x, y)
  | false, true => do
    let b ← copy p.2
    let x ← copy p.1
    let (y, b) ← moveNew b
    dtor b
    return (x, y)
  | false, false => do
    let x ← copy p.1
    let y ← copy p.2
    return (x, y)

/-! ## `Array` (`rpp/array.h`) -/

/-- `operator[]` (`rpp/array.h:68-75`). -/
def Arr.at (a : List (Obj V)) (idx : Nat) : L (Obj V) := fun s =>
  match a[idx]? with
  | some o => .ok (o, s)
  | none => .error .die

/-- `T data_[N] = {}` (`rpp/array.h:109`). -/
def Arr.fresh (d : V) : Nat → L (List (Obj V))
  | 0 => pure []
  | n + 1 => do
    let o ← mk (some d)
    let r ← Arr.fresh d n
    return o :: r

/-- The loops of `clone` (`rpp/array.h:53-64`): `result[i] = data_[i].clone()`, `n` rounds left. -/
def Arr.cloneLoop (a : List (Obj V)) : Nat → Nat → List (Obj V) → L (List (Obj V))
  | 0, _, r => pure r
  | n + 1, i, r => do
    let src ← Arr.at a i
    let t ← copy src
    let d ← Arr.at r i
    let (d, t) ← moveTo d t
    dtor t
    Arr.cloneLoop a n (i + 1) (r.set i d)

/-- `clone` (`rpp/array.h:49-66`), for plain data by memcpy, otherwise element by element; `d`: the default value. -/
def Arr.clone (plain : Bool) (d : V) (a : List (Obj V)) : L (List (Obj V)) := do
  let result ← Arr.fresh d a.length
  if plain then return List.zipWith (fun r o => { r with val := o.val }) result a
  else Arr.cloneLoop a a.length 0 result

/-! ## `swap` (`rpp/utility.h:630-642`) -/

/-- `memcpy(&l[i], &l[j], sizeof(T))`: undefined for overlapping objects. -/
def copyBytes (l : List (Obj V)) (i j : Nat) : Res (List (Obj V)) :=
  if i = j then .error .ub
  else match l[i]?, l[j]? with
    | some x, some y => .ok (l.set i { x with val := y.val })
    | _, _ => .error .ub

/-- `l[i] = move(l[j])`. An object assigned to itself is left without its value. -/
def assignAt (l : List (Obj V)) (i j : Nat) : Res (List (Obj V)) :=
  match l[i]?, l[j]? with
  | some x, some y =>
    if i = j then .ok (l.set i { x with val := none })
    else .ok ((l.set i { x with val := y.val }).set j { y with val := none })
  | _, _ => .error .ub

/-- `swap(l[i], l[j])`: three memcpy for trivially movable types, otherwise three moves. -/
def swap (plain : Bool) (l : List (Obj V)) (i j : Nat) : L (List (Obj V)) := do
  let x ← Arr.at l i
  let y ← Arr.at l j
  if plain then
    let tmp := x.val
    let l ← copyBytes l i j
    return l.set j { y with val := tmp }
  else
    let (tmp, x) ← moveNew x
    let l := l.set i x
    let l ← assignAt l i j
    let y ← Arr.at l j
    let (y, tmp) ← moveTo y tmp
    dtor tmp
    return l.set j y

/-- `Stream::shuffle` (`rpp/rng.h:45-51`) with `swap` as it is, `n` rounds left. -/
def shuffleLoop (plain : Bool) : Nat → Nat → List (Obj V) → BitVec 64 → L (List (Obj V) × BitVec 64)
  | 0, _, l, g => pure (l, g)
  | n + 1, i, l, g => do
    let (j, g) ← RNG.range Math.u64 i l.length g
    let l ← swap plain l i j.toNat
    shuffleLoop plain n (i + 1) l g

end Rpp.Fixed
