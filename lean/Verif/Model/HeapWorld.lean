import Verif.Model.Heap
import Verif.Spec.HeapWorld

/-!
# Model of client programs over several heaps (`rpp/heap.h`)

A heap has the three words of a vector, and its destructor (57-67), move assignment (46-55) and
`clear` (119-126) are those of `Vec` line by line, so the variables are those of `VecWorld`.
-/

namespace Rpp.HeapWorld
open Rpp Rpp.Spec

variable {α : Type _}

/-- `(push(forward(init)), ...)` (`rpp/heap.h:32`). -/
def pushAll (T : Traits) (lt : α → α → Bool) : Vec → List α → M α Vec
  | v, [] => pure v
  | v, a :: l => do
    let v ← PHeap.push T lt v a
    pushAll T lt v l

/-- `Heap(S&&... init)` (`rpp/heap.h:28-33`): `reserve`, then push one by one. -/
def ofElems (T : Traits) (lt : α → α → Bool) (l : List α) : M α Vec := do
  let v ← PHeap.reserve T Vec.nil l.length
  pushAll T lt v l

/-- One client operation. `Heap(u64 capacity)` (`rpp/heap.h:22-26`) is as in `Vec`; the other clauses
are the member functions cited at their definitions. -/
def step (T : Traits) (lt : α → α → Bool) (w : VecWorld α) : HWOp α → Res (Out α × VecWorld α)
  | .fresh x n => do return (.unit, ← VecWorld.assignTemp T w x (Vec.withCapacity n))
  | .init x l => do return (.unit, ← VecWorld.assignTemp T w x (ofElems T lt l))
  | .push x a => w.on x (fun v => PHeap.push T lt v a)
  | .pop x => w.on x (PHeap.pop T lt)
  | .top x => w.query x (fun v => do return .val (← PHeap.top v))
  | .take x => do
    let (a, h) ← PHeap.top (w.vars x) w.heap
    let (v, h) ← PHeap.pop T lt (w.vars x) h
    return (.val a, ⟨upd w.vars x v, h⟩)
  | .length x => w.query x (fun v => return .num v.len)
  | .clear x => w.on x (Vec.clear T)
  | .reserve x n => w.on x (fun v => PHeap.reserve T v n)
  | .elems x => w.query x (fun v => do return .list (← Vec.iterate v 0 v.len))
  | .moveAssign x y => do return (.unit, ← VecWorld.moveAssign T w x y)
  | .cloneAssign x y => do return (.unit, ← VecWorld.assignTemp T w x (PHeap.clone T (w.vars y)))
  | .scopeEnd x => w.on x (Vec.dtor T)

/-- A client program: what it saw, and the variables or the failure it ended with. -/
def run (T : Traits) (lt : α → α → Bool) : VecWorld α → List (HWOp α) →
    List (Out α) × Res (VecWorld α)
  | w, [] => ([], .ok w)
  | w, op :: ops =>
    match step T lt w op with
    | .error e => ([], .error e)
    | .ok (o, w) =>
      let (os, r) := run T lt w ops
      (o :: os, r)

end Rpp.HeapWorld
