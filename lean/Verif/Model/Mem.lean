/-!
# Outcomes and element storage

Shared vocabulary of the container models.

* `Err` separates the ways in which the C++ code can fail to return normally.
* `Heap` is the memory seen by a container of element type `α`: numbered blocks obtained from an
  `Allocator` (`A::alloc` / `A::free`), each a row of cells that are either raw storage (`none`) or
  hold a live element (`some v`).

Sources: `rpp/impl/alloc.cpp:101-116` (`sys_alloc` asserts that malloc succeeded, `sys_free`
ignores null), `rpp/alloc1.h:91-108` (`Mallocator::alloc` returns null for size 0),
placement new / explicit destructor calls / moves as used all over `rpp/vec.h`, `rpp/queue.h`.
Simplification: addresses are block numbers plus an index; a block is counted in elements and not
in bytes (no overflow of `capacity * sizeof(T)`, see `lim`).
-/

namespace Rpp

/-- Ways not to return normally.
* `die`: `assert`/`die` ended the process (`rpp/log.h:22-47`; asserts are active in all builds). What
  reporting the failure comes to is in `Verif.Model.Report` (C127).
* `oom`: `sys_alloc`'s `assert(ret)` failed (`rpp/impl/alloc.cpp:101-103`).
* `ub`: undefined behaviour (out of bounds, null or dangling pointer, dead or uninitialised object,
  division by zero, oversized shift, signed overflow).
* `leak`: a live object that owns something was overwritten or its storage was released.
* `hang`: a loop does not end. -/
inductive Err where
  | die | oom | ub | leak | hang
  deriving DecidableEq, Repr

/-- Result of running a piece of code. -/
abbrev Res (α : Type _) := Except Err α

instance {ε α} [DecidableEq ε] [DecidableEq α] : DecidableEq (Except ε α)
  | .ok a, .ok b => if h : a = b then isTrue (by rw [h]) else isFalse (by intro e; injection e; contradiction)
  | .error a, .error b => if h : a = b then isTrue (by rw [h]) else isFalse (by intro e; injection e; contradiction)
  | .ok _, .error _ => isFalse (by intro e; cases e)
  | .error _, .ok _ => isFalse (by intro e; cases e)

/-- Storage for a number of elements; `none` is raw storage, `some v` a live element. -/
abbrev Buf (α : Type _) := List (Option α)

/-- Memory as seen through an allocator. `next` is the next unused block number; `lim` is the
largest number of elements malloc is able to provide in one block. -/
structure Heap (α : Type _) where
  next : Nat
  lim : Nat
  blk : Nat → Option (Buf α)

/-- What the container code needs to know about the element type
(`rpp/base.h` concepts, `rpp/utility.h` `Trivially_Movable`, `Trivially_Copyable`, `Must_Destruct`).
`triv = true`: plain data (moves and copies are memcpy, no destructor, overwriting is harmless).
`triv = false`: elements own something; every element must be destroyed exactly once. -/
structure Traits where
  triv : Bool
  deriving DecidableEq, Repr

/-- Memory-accessing code. -/
abbrev M (α : Type _) (β : Type _) := StateT (Heap α) Res β

namespace Heap
variable {α : Type _}

/-- No blocks allocated. -/
def empty (lim : Nat) : Heap α := ⟨0, lim, fun _ => none⟩

/-- Replace the contents of block `id`. -/
def put (h : Heap α) (id : Nat) (b : Option (Buf α)) : Heap α :=
  { h with blk := fun j => if j = id then b else h.blk j }

end Heap

section
variable {α : Type _}

/-- `A::alloc(n * sizeof(T))`; null for `n = 0` (`rpp/alloc1.h:91-99`, `rpp/impl/alloc.cpp:101-108`). -/
def alloc (n : Nat) : M α (Option Nat) := fun h =>
  if n = 0 then .ok (none, h)
  else if n > h.lim then .error .oom
  else .ok (some h.next, { (h.put h.next (some (List.replicate n none))) with next := h.next + 1 })

/-- `A::free(p)` (`rpp/alloc1.h:101-108`, `rpp/impl/alloc.cpp:110-116`): null is ignored, freeing
anything but a block that is allocated is undefined, freeing storage that still holds an owning
element loses that element. -/
def free (T : Traits) (p : Option Nat) : M α Unit := fun h =>
  match p with
  | none => .ok ((), h)
  | some id =>
    match h.blk id with
    | none => .error .ub
    | some b => if T.triv || b.all Option.isNone then .ok ((), h.put id none) else .error .leak

/-- Read the live element `p[i]`. -/
def readAt (p : Option Nat) (i : Nat) : M α α := fun h =>
  match p with
  | none => .error .ub
  | some id =>
    match h.blk id with
    | none => .error .ub
    | some b =>
      match b[i]? with
      | some (some v) => .ok (v, h)
      | _ => .error .ub

/-- `new(&p[i]) T{v}`. -/
def construct (T : Traits) (p : Option Nat) (i : Nat) (v : α) : M α Unit := fun h =>
  match p with
  | none => .error .ub
  | some id =>
    match h.blk id with
    | none => .error .ub
    | some b =>
      match b[i]? with
      | none => .error .ub
      | some none => .ok ((), h.put id (some (b.set i (some v))))
      | some (some _) => if T.triv then .ok ((), h.put id (some (b.set i (some v)))) else .error .leak

/-- `p[i].~T()`; for plain data the code skips it (`if constexpr(Must_Destruct<T>)`) or it does
nothing. -/
def destroy (T : Traits) (p : Option Nat) (i : Nat) : M α Unit := fun h =>
  if T.triv then .ok ((), h) else
  match p with
  | none => .error .ub
  | some id =>
    match h.blk id with
    | none => .error .ub
    | some b =>
      match b[i]? with
      | some (some _) => .ok ((), h.put id (some (b.set i none)))
      | _ => .error .ub

/-- `rpp::move(p[i])` consumed by a constructor: the value leaves the cell. rpp never runs the
destructor of an element moved out of a container buffer (`rpp/vec.h:127-129`), so the cell is raw
storage afterwards. -/
def moveOut (T : Traits) (p : Option Nat) (i : Nat) : M α α := fun h =>
  match p with
  | none => .error .ub
  | some id =>
    match h.blk id with
    | none => .error .ub
    | some b =>
      match b[i]? with
      | some (some v) => .ok (v, if T.triv then h else h.put id (some (b.set i none)))
      | _ => .error .ub

/-- Assignment through a reference `p[i] = v`: the old value is released by the assignment
operator of `T`, the cell stays live. -/
def assignAt (p : Option Nat) (i : Nat) (v : α) : M α Unit := fun h =>
  match p with
  | none => .error .ub
  | some id =>
    match h.blk id with
    | none => .error .ub
    | some b =>
      match b[i]? with
      | some (some _) => .ok ((), h.put id (some (b.set i (some v))))
      | _ => .error .ub

/-- `Libc::memcpy(&d[di], &s[si], n * sizeof(T))` between different blocks: copies cells whatever
they contain; both ranges must lie inside their blocks. `n = 0` touches nothing. -/
def memcpy (d : Option Nat) (di : Nat) (s : Option Nat) (si : Nat) (n : Nat) : M α Unit := fun h =>
  if n = 0 then .ok ((), h) else
  match d, s with
  | some di', some si' =>
    match h.blk di', h.blk si' with
    | some db, some sb =>
      if di + n ≤ db.length ∧ si + n ≤ sb.length then
        .ok ((), h.put di' (some (db.take di ++ ((sb.drop si).take n) ++ db.drop (di + n))))
      else .error .ub
    | _, _ => .error .ub
  | _, _ => .error .ub

/-- `assert(c)`. -/
def require (c : Bool) : M α Unit := fun h => if c then .ok ((), h) else .error .die

/-- `for(u64 i = 0; i < n; i++) body(i)`, started at `i`. `n` counts the remaining iterations. -/
def forLoop (body : Nat → M α Unit) : Nat → Nat → M α Unit
  | _, 0 => pure ()
  | i, n + 1 => do body i; forLoop body (i + 1) n

end

end Rpp
