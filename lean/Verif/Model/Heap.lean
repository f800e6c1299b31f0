import Verif.Model.Vec
import Verif.Spec.Heap

/-!
# Model of `rpp::Heap` (`rpp/heap.h`)

A heap has the same three words as a vector (`rpp/heap.h:254-256`), so the structure `Vec` is reused.
`lt` is `operator<` of the element type.
-/

namespace Rpp.PHeap
open Rpp Rpp.Spec

variable {α : Type _}

/-- `reserve` (`rpp/heap.h:92-110`): as in `Vec`, without the null check before copying (nothing is
copied from a null buffer because the length is then 0). -/
def reserve (T : Traits) (v : Vec) (new_capacity : Nat) : M α Vec := do
  if new_capacity ≤ v.cap then return v
  let new_data ← alloc new_capacity
  (if T.triv then
    memcpy new_data 0 v.data 0 v.len
   else
    forLoop (fun i => do
      let x ← moveOut T v.data i
      construct T new_data i x) 0 v.len)
  free T v.data
  return { v with cap := new_capacity, data := new_data }

/-- `grow` (`rpp/heap.h:112-117`). -/
def grow (T : Traits) (v : Vec) : M α Vec :=
  reserve T v (if v.cap ≠ 0 then 2 * v.cap else 8)

/-- `swap(a, b)` (`rpp/heap.h:197-203`). `temp` is dead after it has been moved from. -/
def swap (T : Traits) (v : Vec) (a b : Nat) : M α Unit := do
  let temp ← moveOut T v.data a
  let y ← moveOut T v.data b
  construct T v.data a y
  construct T v.data b temp

/-- `reheap_up` (`rpp/heap.h:205-219`). -/
def reheapUp (T : Traits) (lt : α → α → Bool) (v : Vec) : Nat → Nat → M α Unit
  | 0, _ => fun _ => .error .hang
  | fuel + 1, idx =>
    if idx = 0 then pure ()
    else do
      let parent_idx := (idx - 1) / 2
      let elem ← readAt v.data idx
      let parent ← readAt v.data parent_idx
      (if lt elem parent then do
        swap T v idx parent_idx
        reheapUp T lt v fuel parent_idx
       else pure ())

/-- `reheap_down` (`rpp/heap.h:221-252`). The reference `parent` is dereferenced by the comparisons
only. -/
def reheapDown (T : Traits) (lt : α → α → Bool) (v : Vec) : Nat → Nat → M α Unit
  | 0, _ => fun _ => .error .hang
  | fuel + 1, idx =>
    let left := idx * 2 + 1
    let right := left + 1
    if right < v.len then do
      let parent ← readAt v.data idx
      let lchild ← readAt v.data left
      let rchild ← readAt v.data right
      (if lt lchild parent && !lt rchild lchild then do
        swap T v idx left
        reheapDown T lt v fuel left
       else if lt rchild parent && !lt lchild rchild then do
        swap T v idx right
        reheapDown T lt v fuel right
       else pure ())
    else if left < v.len then do
      let parent ← readAt v.data idx
      let lchild ← readAt v.data left
      (if lt lchild parent then swap T v idx left else pure ())
    else pure ()

/-- `push` (`rpp/heap.h:138-144`), `emplace` (146-153). -/
def push (T : Traits) (lt : α → α → Bool) (v : Vec) (value : α) : M α Vec := do
  let v ← (if v.len = v.cap then grow T v else pure v)
  construct T v.data v.len value
  let v := { v with len := v.len + 1 }
  reheapUp T lt v (v.len + 1) (v.len - 1)
  return v

/-- `pop` (`rpp/heap.h:155-174`). The memcpy of one element within the buffer (line 167) is
`moveOut`/`construct` on plain data. -/
def pop (T : Traits) (lt : α → α → Bool) (v : Vec) : M α Vec := do
  require (v.len > 0)
  (if !T.triv then destroy T v.data 0 else pure ())
  let v := { v with len := v.len - 1 }
  (if v.len > 0 then do
    let x ← moveOut T v.data v.len
    construct T v.data 0 x
    reheapDown T lt v (v.len + 1) 0
   else pure ())
  return v

/-- `top` (`rpp/heap.h:176-181`), read through. There is no assert. -/
def top (v : Vec) : M α α := readAt v.data 0

/-- `clone` (`rpp/heap.h:69-90`). -/
def clone (T : Traits) (v : Vec) : M α Vec := do
  let data ← alloc v.cap
  let ret : Vec := ⟨data, v.len, v.cap⟩
  (if T.triv then
    memcpy ret.data 0 v.data 0 v.len
   else
    forLoop (fun i => do
      let x ← readAt v.data i
      construct T ret.data i x) 0 v.len)
  return ret

/-- One client operation on a heap. `clear` (`rpp/heap.h:119-126`), the destructor (57-67) and
iteration (183-194) are as in `Vec`. `reclone` is `h = h.clone()`, with the move assignment of
38-55: the old buffer is destroyed and the clone's words are taken over. -/
def step (T : Traits) (lt : α → α → Bool) (v : Vec) : HOp α → M α (Out α × Vec)
  | .push a => do return (.unit, ← push T lt v a)
  | .pop => do return (.unit, ← pop T lt v)
  | .top => do return (.val (← top v), v)
  | .take => do
    let x ← top v
    return (.val x, ← pop T lt v)
  | .length => return (.num v.len, v)
  | .clear => do return (.unit, ← Vec.clear T v)
  | .reserve n => do return (.unit, ← reserve T v n)
  | .elems => do return (.list (← Vec.iterate v 0 v.len), v)
  | .reclone => do
    let w ← clone T v
    let _ ← Vec.dtor T v
    return (.unit, w)

/-- A client program: what it saw, and the heap or the failure it ended with. The output seen before
a failure is kept. -/
def run (T : Traits) (lt : α → α → Bool) : Vec → Heap α → List (HOp α) →
    List (Out α) × Res (Vec × Heap α)
  | v, h, [] => ([], .ok (v, h))
  | v, h, op :: ops =>
    match step T lt v op h with
    | .error e => ([], .error e)
    | .ok ((o, v), h) =>
      let (os, r) := run T lt v h ops
      (o :: os, r)

end Rpp.PHeap
