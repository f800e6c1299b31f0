import Verif.Model.Mem
import Verif.Spec.Seq

/-!
# Model of `rpp::Vec` and `rpp::Stack` (`rpp/vec.h`, `rpp/stack.h`)

A vector is the three words `data_`, `length_`, `capacity_` (`rpp/vec.h:264-267`); the elements
live in a heap block. Words are natural numbers: lengths are limited by what malloc provides
(`Heap.lim`), so the code's u64 arithmetic does not wrap; see DESIGN.md.
-/

namespace Rpp

/-- `rpp/vec.h:264-267`. `data = none` is the null pointer. -/
structure Vec where
  data : Option Nat
  len : Nat
  cap : Nat
  deriving DecidableEq, Repr

namespace Vec
variable {α : Type _}

/-- `Vec() noexcept = default` (`rpp/vec.h:19`). -/
def nil : Vec := ⟨none, 0, 0⟩

/-- `Vec(u64 capacity)` (`rpp/vec.h:21-24`). -/
def withCapacity (capacity : Nat) : M α Vec := do
  let p ← alloc capacity
  return ⟨p, 0, capacity⟩

/-- `Vec::make(u64 length)` (`rpp/vec.h:26-35`); `d` is `T{}`. -/
def make (T : Traits) (d : α) (length : Nat) : M α Vec := do
  let p ← alloc length
  forLoop (fun i => construct T p i d) 0 length
  return ⟨p, length, length⟩

/-- `reserve` (`rpp/vec.h:115-136`). The two branches of `if constexpr(Trivially_Movable<T>)`
(lines 123-130) are both present. -/
def reserve (T : Traits) (v : Vec) (new_capacity : Nat) : M α Vec := do
  if new_capacity ≤ v.cap then return v
  let new_data ← alloc new_capacity
  (if v.data.isSome && new_data.isSome then
    (if T.triv then
      memcpy new_data 0 v.data 0 v.len
    else
      forLoop (fun i => do
        let x ← moveOut T v.data i
        construct T new_data i x) 0 v.len)
   else pure ())
  free T v.data
  return { v with cap := new_capacity, data := new_data }

/-- `grow` (`rpp/vec.h:99-104`). -/
def grow (T : Traits) (v : Vec) : M α Vec :=
  reserve T v (if v.cap ≠ 0 then 2 * v.cap else 8)

/-- `clear` (`rpp/vec.h:106-113`). -/
def clear (T : Traits) (v : Vec) : M α Vec := do
  (if !T.triv then forLoop (fun i => destroy T v.data i) 0 v.len else pure ())
  return { v with len := 0 }

/-- `~Vec` (`rpp/vec.h:66-76`). -/
def dtor (T : Traits) (v : Vec) : M α Vec := do
  (if !T.triv then forLoop (fun i => destroy T v.data i) 0 v.len else pure ())
  free T v.data
  return ⟨none, 0, 0⟩

/-- `resize` (`rpp/vec.h:144-156`); `d` is `T{}` (value initialisation of each new element). -/
def resize (T : Traits) (d : α) (v : Vec) (new_length : Nat) : M α Vec := do
  let v ← reserve T v new_length
  (if new_length > v.len then
    forLoop (fun i => construct T v.data i d) v.len (new_length - v.len)
   else if !T.triv then
    forLoop (fun i => destroy T v.data i) new_length (v.len - new_length)
   else pure ())
  return { v with len := new_length }

/-- `extend` (`rpp/vec.h:138-142`). -/
def extend (T : Traits) (d : α) (v : Vec) (additional : Nat) : M α Vec :=
  resize T d v (v.len + additional)

/-- `push(T&&)` (`rpp/vec.h:174-181`); `value` is the moved argument. `emplace`
(`rpp/vec.h:183-190`) does the same with a freshly built element. -/
def push (T : Traits) (v : Vec) (value : α) : M α Vec := do
  let v ← (if v.len = v.cap then grow T v else pure v)
  require (v.len < v.cap)
  construct T v.data v.len value
  return { v with len := v.len + 1 }

/-- `v.push(v[i])`, i.e. `push(const T&)` (`rpp/vec.h:168-172`) with a reference into the vector
itself: the copy `T{value}` is taken before `push(T&&)` runs. `v[i]` is
`operator[]` (`rpp/vec.h:218-225`). -/
def pushOwn (T : Traits) (v : Vec) (i : Nat) : M α Vec := do
  require (i < v.len)
  let value ← readAt v.data i
  push T v value

/-- `v.emplace(v[i])` (`rpp/vec.h:183-190`): the reference into the vector is dereferenced only
after `grow`. The reference is the old address `data_ + i`. -/
def emplaceOwn (T : Traits) (v : Vec) (i : Nat) : M α Vec := do
  require (i < v.len)
  let addr := v.data
  let v ← (if v.len = v.cap then grow T v else pure v)
  require (v.len < v.cap)
  let value ← readAt addr i
  construct T v.data v.len value
  return { v with len := v.len + 1 }

/-- The fold `(push(rpp::move(init)), ...)` (`rpp/vec.h:41`): from left to right. -/
def pushAll (T : Traits) (v : Vec) : List α → M α Vec
  | [] => pure v
  | x :: xs => do
    let v ← push T v x
    pushAll T v xs

/-- `Vec(Ss&&... init)` (`rpp/vec.h:37-42`). -/
def ofElems (T : Traits) (init : List α) : M α Vec := do
  let v ← reserve T nil init.length
  pushAll T v init

/-- `pop` (`rpp/vec.h:192-198`). -/
def pop (T : Traits) (v : Vec) : M α Vec := do
  require (v.len > 0)
  let v := { v with len := v.len - 1 }
  (if !T.triv then destroy T v.data v.len else pure ())
  return v

/-- `front` (`rpp/vec.h:200-207`), read through. -/
def front (v : Vec) : M α α := do
  require (v.len > 0)
  readAt v.data 0

/-- `back` (`rpp/vec.h:209-216`), read through. -/
def back (v : Vec) : M α α := do
  require (v.len > 0)
  readAt v.data (v.len - 1)

/-- `operator[]` (`rpp/vec.h:218-225`), read through. -/
def get (v : Vec) (idx : Nat) : M α α := do
  require (idx < v.len)
  readAt v.data idx

/-- `v[idx] = x` (`rpp/vec.h:218-221`). -/
def set (v : Vec) (idx : Nat) (x : α) : M α Unit := do
  require (idx < v.len)
  assignAt v.data idx x

/-- Reading all elements through `begin()`/`end()` (`rpp/vec.h:227-238`). -/
def iterate (v : Vec) : Nat → Nat → M α (List α)
  | _, 0 => pure []
  | i, n + 1 => do
    let x ← readAt v.data i
    let xs ← iterate v (i + 1) n
    return x :: xs

/-- `clone` (`rpp/vec.h:78-97`): memcpy for trivially copyable elements, otherwise element-wise
`clone()`/copy construction. -/
def clone (T : Traits) (v : Vec) : M α Vec := do
  let ret ← withCapacity v.cap
  let ret := { ret with len := v.len }
  (if T.triv then
    memcpy ret.data 0 v.data 0 v.len
   else
    forLoop (fun i => do
      let x ← readAt v.data i
      construct T ret.data i x) 0 v.len)
  return ret

end Vec

/-! ## `rpp::Stack`

`Stack` (`rpp/stack.h:99-100`) has one member, a `Vec`, and forwards: `push` -> `Vec::push`
(59-63), `emplace` -> `Vec::emplace` (65-69), `pop` -> `Vec::pop` (71-73), `top` -> `Vec::back`
(75-80), `clear` (82-84), `length`/`empty` (43-48). -/

namespace Stack
variable {α : Type _}

/-- `Stack::push` (`rpp/stack.h:59-63`). -/
def push (T : Traits) (s : Vec) (x : α) : M α Vec := Vec.push T s x
/-- `Stack::pop` (`rpp/stack.h:71-73`). -/
def pop (T : Traits) (s : Vec) : M α Vec := Vec.pop T s
/-- `Stack::top` (`rpp/stack.h:75-80`). -/
def top (s : Vec) : M α α := Vec.back s
/-- `Stack::clear` (`rpp/stack.h:82-84`). -/
def clear (T : Traits) (s : Vec) : M α Vec := Vec.clear T s
/-- `Stack::length` (`rpp/stack.h:43-45`). -/
def length (s : Vec) : Nat := s.len

end Stack

/-! ## Client programs over vector variables -/

open Spec (VecOp Out upd)

/-- Vector variables of a client and the memory they use. -/
structure VecWorld (α : Type _) where
  vars : Nat → Vec
  heap : Heap α

namespace VecWorld
variable {α : Type _}

/-- All variables default constructed, no memory in use. -/
def init (lim : Nat) : VecWorld α := ⟨fun _ => Vec.nil, Heap.empty lim⟩

/-- Run a member function that updates variable `x`. -/
def on (w : VecWorld α) (x : Nat) (f : Vec → M α Vec) : Res (Out α × VecWorld α) := do
  let (v, h) ← f (w.vars x) w.heap
  return (.unit, ⟨upd w.vars x v, h⟩)

/-- Run a member function that returns a value. -/
def query (w : VecWorld α) (x : Nat) (f : Vec → M α (Out α)) : Res (Out α × VecWorld α) := do
  let (o, h) ← f (w.vars x) w.heap
  return (o, ⟨w.vars, h⟩)

/-- `operator=(Vec&& src)` (`rpp/vec.h:55-64`): `this->~Vec()`, copy the three words of `src`, null
`src`. With `x = y` the source words are read after the destructor has reset them. -/
def moveAssign (T : Traits) (w : VecWorld α) (x y : Nat) : Res (VecWorld α) := do
  let (v, h) ← Vec.dtor T (w.vars x) w.heap
  let vars1 := upd w.vars x v
  let vars2 := upd vars1 x (vars1 y)
  let vars3 := upd vars2 y Vec.nil
  return ⟨vars3, h⟩

/-- Move-assignment from a temporary, followed by the temporary's destructor
(`rpp/vec.h:55-76`). -/
def assignTemp (T : Traits) (w : VecWorld α) (x : Nat) (tmp : M α Vec) : Res (VecWorld α) := do
  let (t, h) ← tmp w.heap
  let (_, h) ← Vec.dtor T (w.vars x) h
  let vars := upd w.vars x t
  -- the temporary was nulled by the assignment
  let (_, h) ← Vec.dtor T Vec.nil h
  return ⟨vars, h⟩

/-- One client operation. Each clause is the member function cited at its definition. -/
def step (T : Traits) (d : α) (w : VecWorld α) : VecOp α → Res (Out α × VecWorld α)
  | .fresh x n => do return (.unit, ← assignTemp T w x (Vec.withCapacity n))
  | .make x n => do return (.unit, ← assignTemp T w x (Vec.make T d n))
  | .init x l => do return (.unit, ← assignTemp T w x (Vec.ofElems T l))
  | .push x a => w.on x (fun v => Vec.push T v a)
  | .pushOwn x i => w.on x (fun v => Vec.pushOwn T v i)
  | .pop x => w.on x (Vec.pop T)
  | .clear x => w.on x (Vec.clear T)
  | .resize x n => w.on x (fun v => Vec.resize T d v n)
  | .extend x n => w.on x (fun v => Vec.extend T d v n)
  | .reserve x n => w.on x (fun v => Vec.reserve T v n)
  | .set x i a => w.on x (fun v => do Vec.set v i a; return v)
  | .moveAssign x y => do return (.unit, ← moveAssign T w x y)
  | .cloneAssign x y => do return (.unit, ← assignTemp T w x (Vec.clone T (w.vars y)))
  | .scopeEnd x => w.on x (Vec.dtor T)
  | .get x i => w.query x (fun v => do return .val (← Vec.get v i))
  | .front x => w.query x (fun v => do return .val (← Vec.front v))
  | .back x => w.query x (fun v => do return .val (← Vec.back v))
  | .length x => w.query x (fun v => return .num v.len)
  | .elems x => w.query x (fun v => do return .list (← Vec.iterate v 0 v.len))

/-- A client program. -/
def run (T : Traits) (d : α) : VecWorld α → List (VecOp α) → Res (List (Out α) × VecWorld α)
  | w, [] => .ok ([], w)
  | w, op :: ops => do
    let (o, w) ← step T d w op
    let (os, w) ← run T d w ops
    return (o :: os, w)

/-- End of the program: the variables `xs` are destroyed. -/
def finish (T : Traits) : VecWorld α → List Nat → Res (VecWorld α)
  | w, [] => .ok w
  | w, x :: xs => do
    let (_, w) ← w.on x (Vec.dtor T)
    finish T w xs

end VecWorld
end Rpp
