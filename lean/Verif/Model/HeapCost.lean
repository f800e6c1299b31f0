import Verif.Model.Heap

/-!
# Model: `Heap` with its comparisons and swaps counted

`rpp/heap.h:138-174, 205-252`: the functions of `Verif.Model.Heap` once more; they return besides how often `operator<` and `swap` were
called. `C156_same` says that they do the same.
-/

namespace Rpp.PHeap
open Rpp Rpp.Spec

variable {α : Type _}

/-- How often elements were compared and swapped. -/
structure Cost where
  compares : Nat
  swaps : Nat
  deriving DecidableEq

/-- More of both. -/
def Cost.more (c : Cost) (compares swaps : Nat) : Cost := ⟨c.compares + compares, c.swaps + swaps⟩

/-- `reheap_up` (`rpp/heap.h:205-219`). -/
def reheapUpC (T : Traits) (lt : α → α → Bool) (v : Vec) : Nat → Nat → M α Cost
  | 0, _ => fun _ => .error .hang
  | fuel + 1, idx =>
    if idx = 0 then pure ⟨0, 0⟩
    else do
      let parent_idx := (idx - 1) / 2
      let elem ← readAt v.data idx
      let parent ← readAt v.data parent_idx
      (if lt elem parent then do
        swap T v idx parent_idx
        let c ← reheapUpC T lt v fuel parent_idx
        pure (c.more 1 1)
       else pure ⟨1, 0⟩)

/-- `reheap_down` (`rpp/heap.h:221-252`). The right operand of `&&` is evaluated only if the left one is true. -/
def reheapDownC (T : Traits) (lt : α → α → Bool) (v : Vec) : Nat → Nat → M α Cost
  | 0, _ => fun _ => .error .hang
  | fuel + 1, idx =>
    let left := idx * 2 + 1
    let right := left + 1
    if right < v.len then do
      let parent ← readAt v.data idx
      let lchild ← readAt v.data left
      let rchild ← readAt v.data right
      let first := if lt lchild parent then 2 else 1
      let second := if lt rchild parent then 2 else 1
      (if lt lchild parent && !lt rchild lchild then do
        swap T v idx left
        let c ← reheapDownC T lt v fuel left
        pure (c.more first 1)
       else if lt rchild parent && !lt lchild rchild then do
        swap T v idx right
        let c ← reheapDownC T lt v fuel right
        pure (c.more (first + second) 1)
       else pure ⟨first + second, 0⟩)
    else if left < v.len then do
      let parent ← readAt v.data idx
      let lchild ← readAt v.data left
      (if lt lchild parent then do
        swap T v idx left
        pure ⟨1, 1⟩
       else pure ⟨1, 0⟩)
    else pure ⟨0, 0⟩

/-- `push` (`rpp/heap.h:138-144`). -/
def pushC (T : Traits) (lt : α → α → Bool) (v : Vec) (value : α) : M α (Vec × Cost) := do
  let v ← (if v.len = v.cap then grow T v else pure v)
  construct T v.data v.len value
  let v := { v with len := v.len + 1 }
  let c ← reheapUpC T lt v (v.len + 1) (v.len - 1)
  return (v, c)

/-- `pop` (`rpp/heap.h:155-174`). -/
def popC (T : Traits) (lt : α → α → Bool) (v : Vec) : M α (Vec × Cost) := do
  require (v.len > 0)
  (if !T.triv then destroy T v.data 0 else pure ())
  let v := { v with len := v.len - 1 }
  let c ← (if v.len > 0 then do
    let x ← moveOut T v.data v.len
    construct T v.data 0 x
    reheapDownC T lt v (v.len + 1) 0
   else pure ⟨0, 0⟩)
  return (v, c)

/-- A program of pushes (`some`) and pops (`none`), with the counts added up. -/
def runC (T : Traits) (lt : α → α → Bool) : Vec → Cost → List (Option α) → M α (Vec × Cost)
  | v, c, [] => pure (v, c)
  | v, c, some a :: ops => do
    let r ← pushC T lt v a
    runC T lt r.1 (c.more r.2.compares r.2.swaps) ops
  | v, c, none :: ops => do
    let r ← popC T lt v
    runC T lt r.1 (c.more r.2.compares r.2.swaps) ops

end Rpp.PHeap
