import Verif.Model.Mem
import Verif.Model.Word

/-!
# Model: how many bytes `Vec`, `Heap` and `Queue` ask for

`rpp/vec.h:21-35, 99-156, 174-198`, `rpp/heap.h:22-26, 92-174`, `rpp/queue.h:20-25, 96-186`. One container with elements of
`sz` bytes; what the elements are does not matter, only which of them are accessed. The size passed to `A::alloc`
is `capacity * sizeof(T)` in 64 bits, so it can wrap. `Stack` is a `Vec` (`rpp/stack.h:21-96`). Moves are left out (they hand the
fields over).
-/

namespace Rpp.Room

/-- Which container. -/
inductive Kind where
  | vec | heap | queue
deriving DecidableEq

/-- The fields: `data_` as the number of bytes of its block (`none` for null), `length_`, `capacity_`, and `last_`, which only queues
have. -/
structure C where
  data : Option Nat
  len : Nat
  cap : Nat
  last : Nat
deriving DecidableEq

/-- `Vec()`. -/
def C.empty : C := ⟨none, 0, 0, 0⟩

/-- `A::alloc(n * sizeof(T))` (`rpp/alloc1.h:91-99`, `rpp/impl/alloc.cpp:101-108`): null for zero bytes; `lim` is what the system can
provide. -/
def alloc (lim sz n : Nat) : Res (Option Nat) :=
  if wmul n sz = 0 then .ok none else if lim < wmul n sz then .error .oom else .ok (some (wmul n sz))

/-- Access to the elements from `i` to before `j` in a block. -/
def touch (d : Option Nat) (sz i j : Nat) : Res Unit :=
  if j ≤ i then .ok ()
  else match d with
    | none => .error .ub
    | some b => if j * sz ≤ b then .ok () else .error .ub

/-- Access to all elements (`rpp/queue.h:105-130` for queues, whose elements may go around the end). -/
def touchAll (k : Kind) (sz : Nat) (c : C) : Res Unit :=
  if k = .queue then
    if c.len ≤ c.last then touch c.data sz (c.last - c.len) c.last
    else do
      touch c.data sz (c.cap - (c.len - c.last)) c.cap
      touch c.data sz 0 c.last
  else touch c.data sz 0 c.len

/-- `reserve` (`rpp/vec.h:115-136`, `rpp/heap.h:92-110`, `rpp/queue.h:101-136`): only `Vec` looks whether there are both blocks. -/
def reserve (k : Kind) (lim sz : Nat) (c : C) (n : Nat) : Res C :=
  if n ≤ c.cap then .ok c
  else do
    let d ← alloc lim sz n
    if k = .vec ∧ (c.data = none ∨ d = none) then .ok ⟨d, c.len, n, c.len⟩
    else do
      touchAll k sz c
      touch d sz 0 c.len
      .ok ⟨d, c.len, n, c.len⟩

/-- `grow` (`rpp/vec.h:99-104`, `rpp/heap.h:112-117`, `rpp/queue.h:96-99`). -/
def grow (k : Kind) (lim sz : Nat) (c : C) : Res C :=
  reserve k lim sz c (if c.cap = 0 then 8 else wmul 2 c.cap)

/-- `push` and `emplace` (`rpp/vec.h:174-190`, `rpp/heap.h:138-153`, `rpp/queue.h:144-169`). Only `Vec` asserts that there is room
now. -/
def push (k : Kind) (lim sz : Nat) (c : C) : Res C := do
  let c ← (if c.len = c.cap then grow k lim sz c else .ok c)
  if k = .vec ∧ ¬ c.len < c.cap then .error .die
  let i := if k = .queue then c.last else c.len
  touch c.data sz i (i + 1)
  .ok { c with len := wadd c.len 1, last := if c.last = wsub c.cap 1 then 0 else wadd c.last 1 }

/-- `pop` (`rpp/vec.h:192-198`, `rpp/heap.h:155-174`, `rpp/queue.h:171-176`): the element destroyed, and for heaps the last one, which is moved
to the front. -/
def pop (k : Kind) (sz : Nat) (c : C) : Res C :=
  if c.len = 0 then .error .die
  else match k with
    | .vec => do
      touch c.data sz (c.len - 1) c.len
      .ok { c with len := c.len - 1 }
    | .heap => do
      touch c.data sz 0 1
      touch c.data sz (c.len - 1) c.len
      .ok { c with len := c.len - 1 }
    | .queue => do
      let i := if c.len ≤ c.last then c.last - c.len else wadd (wsub c.last c.len) c.cap
      touch c.data sz i (i + 1)
      .ok { c with len := c.len - 1 }

/-- `resize` (`rpp/vec.h:144-156`), with a destructor. -/
def resize (lim sz : Nat) (c : C) (n : Nat) : Res C := do
  let c ← reserve .vec lim sz c n
  touch c.data sz (min n c.len) (max n c.len)
  .ok { c with len := n }

/-- What a program does with the container. `make`, `resize` and `extend` are for `Vec` only. -/
inductive Op where
  | ctor (n : Nat)
  | make (n : Nat)
  | reserve (n : Nat)
  | resize (n : Nat)
  | extend (n : Nat)
  | push
  | pop
  | clear
deriving DecidableEq

/-- One operation. Constructing (`rpp/vec.h:21-35`, `rpp/heap.h:22-26`, `rpp/queue.h:20-25`) is constructing a new container and
moving it here, which destroys the old one. Clearing is `rpp/vec.h:106-113`, `rpp/heap.h:119-126` and `rpp/queue.h:178-186`. `extend` computes the new length in 64 bits (`rpp/vec.h:138-142`). -/
def step (k : Kind) (lim sz : Nat) (c : C) : Op → Res C
  | .ctor n => do
    let d ← alloc lim sz n
    touchAll k sz c
    .ok ⟨d, 0, n, 0⟩
  | .make n =>
    if k = .vec then do
      let d ← alloc lim sz n
      touch d sz 0 n
      touchAll k sz c
      .ok ⟨d, n, n, 0⟩
    else .ok c
  | .reserve n => reserve k lim sz c n
  | .resize n => if k = .vec then resize lim sz c n else .ok c
  | .extend n => if k = .vec then resize lim sz c (wadd c.len n) else .ok c
  | .push => push k lim sz c
  | .pop => pop k sz c
  | .clear => do
    touchAll k sz c
    .ok { c with len := 0, last := if k = .queue then 0 else c.last }

/-- A program. -/
def run (k : Kind) (lim sz : Nat) : C → List Op → Res C
  | c, [] => .ok c
  | c, o :: os => do
    let c ← step k lim sz c o
    run k lim sz c os

end Rpp.Room
