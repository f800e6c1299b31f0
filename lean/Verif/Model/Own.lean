import Verif.Model.Queue
import Verif.Model.Heap
import Verif.Model.MapMem

/-!
# Arguments that refer into the container they are added to

`emplace` passes its arguments by reference and uses them after `grow`. Here the argument is a reference
to an element of the container itself: the address of a slot of the buffer as it was when the call
started. (`Vec.emplaceOwn` is in `Model/Vec`.)
-/

namespace Rpp

namespace Queue
variable {α : Type _}

/-- `q.emplace(q[i])` (`rpp/queue.h:157-169`, with `operator[]` of 227-238). -/
def emplaceOwn (T : Traits) (q : Queue) (i : Nat) : M α Queue := do
  require (i < q.len)
  let addr := q.data
  let at_ := index q i
  let q ← (if q.len = q.cap then grow T q else pure q)
  let value ← readAt addr at_
  construct T q.data q.last value
  return { q with len := q.len + 1,
                  last := if q.last = wsub q.cap 1 then 0 else q.last + 1 }

end Queue

namespace PHeap
variable {α : Type _}

/-- `h.emplace(e)` (`rpp/heap.h:146-153`) for the `i`th element `e` met by iterating over `h` (183-194);
`i = 0` is `h.emplace(h.top())`. -/
def emplaceOwn (T : Traits) (lt : α → α → Bool) (v : Vec) (i : Nat) : M α Vec := do
  let addr := v.data
  let v ← (if v.len = v.cap then grow T v else pure v)
  let value ← readAt addr i
  construct T v.data v.len value
  let v := { v with len := v.len + 1 }
  reheapUp T lt v (v.len + 1) (v.len - 1)
  return v

end PHeap

namespace MapMem
variable {K V : Type} [DecidableEq K]

/-- `m.emplace(key, r)` (`rpp/map.h:226-234`), `r` a reference to the value in slot `i` of `m`. If `grow` has
replaced the table (`rpp/map.h:155-172`), the reference is to storage that has been freed. -/
def emplaceOwn (fuel : Nat → Nat) (H : K → Nat) (lim : Nat) (m : LMap K V) (key : K) (i : Nat) :
    S K V (LMap K V × Nat) := do
  let new_capacity := if m.cap ≠ 0 then 2 * m.cap else 32
  let freed := m.len = m.usable ∧ new_capacity > m.cap
  let m ← (if m.len = m.usable then reserve fuel lim m new_capacity else return m)
  let v ← (if freed then fail .ub else pureRes (valAt m i))
  let slot ← newSlot H key v
  let (data, slot, i) ← insert_slot (fuel m.cap) m.cap m.shift m.data slot
  let slot ← dtor slot
  release slot
  return ({ m with data := data, len := m.len + 1 }, i)

/-- The loop of `try_erase` (`rpp/map.h:257-270`) with `key` a reference to the key in slot `j`: it is read
from the table each time. -/
def eraseLoopOwn (f cap shift : Nat) (tab : List (Cell K V)) (hash j : Nat) :
    Nat → Nat → Nat → S K V (Option (List (Cell K V)))
  | 0, _, _ => fail .hang
  | fuel + 1, idx, dist =>
    match tab[idx]?, tab[j]? with
    | some c, some cj => do
      if ← pureRes (same c hash (keyOf cj)) then
        let c ← dtor c
        let tab ← fixLoop cap shift f (tab.set idx c) idx
        return some tab
      else
        let kidx ← pureRes (Map.shr c.hash shift)
        if Map.pdist cap kidx idx < dist then return none
        else eraseLoopOwn f cap shift tab hash j fuel (Map.nxt cap idx) (dist + 1)
    | _, _ => fail .ub

/-- `m.try_erase(r)` (`rpp/map.h:252-271`), `r` a reference to the key in slot `j` of `m`. -/
def try_eraseOwn (fuel : Nat → Nat) (H : K → Nat) (m : LMap K V) (j : Nat) : S K V (LMap K V × Bool) := do
  if m.len = 0 then return (m, false)
  else match m.data[j]? with
    | none => fail .ub
    | some cj =>
      let hash := H (← pureRes (keyOf cj))
      let idx ← pureRes (Map.shr hash m.shift)
      match ← eraseLoopOwn (fuel m.cap) m.cap m.shift m.data hash j (fuel m.cap) idx 0 with
      | some data => return ({ m with data := data, len := m.len - 1 }, true)
      | none => return (m, false)

end MapMem

end Rpp
