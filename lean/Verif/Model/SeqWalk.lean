import Verif.Model.Vec
import Verif.Model.Queue
import Verif.Spec.SeqWalk

/-!
# Model: changing a vector or a queue while it is traversed

`for(auto& x : v) { … }` where the body uses the container itself. `begin()` and `end()` are called once, before the first turn.
The body is an arbitrary function from the element visited to the actions it performs; it does not use the reference `x` after the
first of them.
-/

namespace Rpp

open Spec

variable {α : Type _}

namespace Vec

/-- The actions of one turn: `push` (`rpp/vec.h:174-181`), `pop` (`rpp/vec.h:192-198`), `clear` (`rpp/vec.h:106-113`). -/
def perform (T : Traits) : Vec → List (Act α) → M α Vec
  | v, [] => pure v
  | v, .push y :: as => do perform T (← push T v y) as
  | v, .pop :: as => do perform T (← pop T v) as
  | v, .clear :: as => do perform T (← clear T v) as

/-- The turns of the loop: the iterators are bare pointers (`rpp/vec.h:227-238`), so `p` is the block in which the elements were when
`begin()` was called, `i` the place and `n` what is missing to `end()`. -/
def walkLoop (T : Traits) (body : α → List (Act α)) (p : Option Nat) : Nat → Nat → Vec → M α (List α × Vec)
  | _, 0, v => pure ([], v)
  | i, n + 1, v => do
    let x ← readAt p i
    let v ← perform T v (body x)
    let (xs, v) ← walkLoop T body p (i + 1) n v
    return (x :: xs, v)

/-- The whole loop (`rpp/vec.h:227-238`): the elements visited and the vector at the end. -/
def walk (T : Traits) (body : α → List (Act α)) (v : Vec) : M α (List α × Vec) := walkLoop T body v.data 0 v.len v

end Vec

namespace Queue

/-- The actions of one turn: `push` (`rpp/queue.h:144-155`), `pop` (`rpp/queue.h:171-176`), `clear` (`rpp/queue.h:178-186`). -/
def perform (T : Traits) : Queue → List (Act α) → M α Queue
  | q, [] => pure q
  | q, .push y :: as => do perform T (← push T q y) as
  | q, .pop :: as => do perform T (← pop T q) as
  | q, .clear :: as => do perform T (← clear T q) as

/-- The turns of the loop: the iterator is the queue and a count (`rpp/queue.h:271-315`); the slot is computed anew each time
(`rpp/queue.h:285-292, 343-346`). -/
def walkLoop (T : Traits) (body : α → List (Act α)) : Nat → Nat → Queue → M α (List α × Queue)
  | _, 0, q => pure ([], q)
  | i, n + 1, q => do
    let x ← readAt q.data (idxAt q i)
    let q ← perform T q (body x)
    let (xs, q) ← walkLoop T body (i + 1) n q
    return (x :: xs, q)

/-- The whole loop (`rpp/queue.h:320-332`): `end()` is the length at the start. -/
def walk (T : Traits) (body : α → List (Act α)) (q : Queue) : M α (List α × Queue) := walkLoop T body 0 q.len q

end Queue

end Rpp
