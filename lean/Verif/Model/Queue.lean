import Verif.Model.Mem
import Verif.Model.Word
import Verif.Spec.Queue

/-!
# Model of `rpp::Queue` (`rpp/queue.h`)

A queue is the four words `data_`, `length_`, `last_`, `capacity_` (`rpp/queue.h:348-351`). Index
computations that rely on the wrap-around of `u64` use `wsub`/`wadd`. A pointer that is only formed
(`data_ + last_ - length_` at line 105 can point before the buffer) is represented by its wrapped
index; only accesses are checked.
-/

namespace Rpp

/-- `rpp/queue.h:348-351`. -/
structure Queue where
  data : Option Nat
  len : Nat
  last : Nat
  cap : Nat
  deriving DecidableEq, Repr

namespace Queue
variable {α : Type _}

/-- `Queue() noexcept = default` (`rpp/queue.h:19`). -/
def nil : Queue := ⟨none, 0, 0, 0⟩

/-- `Queue(u64 capacity)` (`rpp/queue.h:20-25`). -/
def withCapacity (capacity : Nat) : M α Queue := do
  let p ← alloc capacity
  return ⟨p, 0, 0, capacity⟩

/-- `start_idx` (`rpp/queue.h:335-338`). -/
def startIdx (q : Queue) : Nat :=
  let idx := wsub q.last q.len
  if idx ≥ q.cap then wadd idx q.cap else idx

/-- `end_idx` (`rpp/queue.h:339-342`). -/
def endIdx (q : Queue) : Nat :=
  if q.cap = 0 then 0 else if q.last = 0 then q.cap - 1 else q.last - 1

/-- `idx_at` (`rpp/queue.h:343-346`). -/
def idxAt (q : Queue) (i : Nat) : Nat :=
  let idx := wadd (wsub q.last q.len) i
  if idx ≥ q.cap then wadd idx q.cap else idx

/-- `reserve` (`rpp/queue.h:101-136`), both branches of `if constexpr(Trivially_Movable<T>)`. -/
def reserve (T : Traits) (q : Queue) (new_capacity : Nat) : M α Queue := do
  if new_capacity ≤ q.cap then return q
  let new_data ← alloc new_capacity
  let start := wsub q.last q.len
  (if T.triv then
    (if q.len ≤ q.last then
      memcpy new_data 0 q.data start q.len
    else do
      let first := wsub q.len q.last
      memcpy new_data 0 q.data (wadd start q.cap) first
      memcpy new_data first q.data 0 q.last)
   else
    (if q.len ≤ q.last then
      forLoop (fun i => do
        let x ← moveOut T q.data (wadd start i)
        construct T new_data i x) 0 q.len
    else do
      let first := wsub q.len q.last
      forLoop (fun i => do
        let x ← moveOut T q.data (wadd start (wadd i q.cap))
        construct T new_data i x) 0 first
      forLoop (fun i => do
        let x ← moveOut T q.data i
        construct T new_data (wadd first i) x) 0 q.last))
  free T q.data
  return { data := new_data, len := q.len, last := q.len, cap := new_capacity }

/-- `grow` (`rpp/queue.h:96-99`). -/
def grow (T : Traits) (q : Queue) : M α Queue :=
  reserve T q (if q.cap ≠ 0 then 2 * q.cap else 8)

/-- `push(T&&)` (`rpp/queue.h:144-155`); `emplace` (157-169) is the same with a freshly built
element. -/
def push (T : Traits) (q : Queue) (value : α) : M α Queue := do
  let q ← (if q.len = q.cap then grow T q else pure q)
  construct T q.data q.last value
  return { q with len := q.len + 1,
                  last := if q.last = wsub q.cap 1 then 0 else q.last + 1 }

/-- `pop` (`rpp/queue.h:171-176`). -/
def pop (T : Traits) (q : Queue) : M α Queue := do
  require (q.len > 0)
  let idx := if q.len ≤ q.last then wsub q.last q.len else wadd (wsub q.last q.len) q.cap
  destroy T q.data idx
  return { q with len := q.len - 1 }

/-- `clear` (`rpp/queue.h:178-186`); the range-for runs over `begin()`/`end()` (271-332). -/
def clear (T : Traits) (q : Queue) : M α Queue := do
  (if !T.triv then forLoop (fun i => destroy T q.data (idxAt q i)) 0 q.len else pure ())
  return { q with len := 0, last := 0 }

/-- `~Queue` (`rpp/queue.h:60-65`). -/
def dtor (T : Traits) (q : Queue) : M α Queue := do
  let q ← clear T q
  free T q.data
  return { q with data := none, cap := 0 }

/-- `front` (`rpp/queue.h:188-195`), read through. -/
def front (q : Queue) : M α α := do
  require (q.len ≠ 0)
  readAt q.data (startIdx q)

/-- `back` (`rpp/queue.h:197-204`), read through. -/
def back (q : Queue) : M α α := do
  require (q.len ≠ 0)
  readAt q.data (endIdx q)

/-- `penultimate` (`rpp/queue.h:206-215`), read through. -/
def penultimate (q : Queue) : M α α := do
  require (q.len > 1)
  readAt q.data (if q.last = 0 then wsub q.cap 2 else if q.last = 1 then wsub q.cap 1 else q.last - 2)

/-- The address computed by `operator[]` (`rpp/queue.h:227-238`) after its assert. -/
def index (q : Queue) (idx : Nat) : Nat :=
  let i := wadd idx (startIdx q)
  if i ≥ q.cap then wsub i q.cap else i

/-- `operator[]` (`rpp/queue.h:227-238`), read through. -/
def get (q : Queue) (idx : Nat) : M α α := do
  require (idx < q.len)
  readAt q.data (index q idx)

/-- `q[idx] = x` (`rpp/queue.h:227-232`). -/
def set (q : Queue) (idx : Nat) (x : α) : M α Unit := do
  require (idx < q.len)
  assignAt q.data (index q idx) x

/-- `q.push(q[i])`: `push(const T&)` (`rpp/queue.h:138-142`) copies before `push(T&&)` runs. -/
def pushOwn (T : Traits) (q : Queue) (i : Nat) : M α Queue := do
  let x ← get q i
  push T q x

/-- Reading all elements through the iterators (`rpp/queue.h:271-332`). -/
def iterate (q : Queue) : Nat → Nat → M α (List α)
  | _, 0 => pure []
  | i, n + 1 => do
    let x ← readAt q.data (idxAt q i)
    let xs ← iterate q (i + 1) n
    return x :: xs

/-- The loop of `clone` for non-trivial elements (`rpp/queue.h:82-84`, `89-91`):
`for(u64 i = start; i != end; i = i == capacity_ - 1 ? 0 : i + 1)`. -/
def cloneLoop (T : Traits) (q : Queue) (dst : Option Nat) (last : Nat) : Nat → Nat → M α Unit
  | 0, _ => fun _ => .error .hang
  | fuel + 1, i =>
    if i = last then pure ()
    else do
      let x ← readAt q.data i
      construct T dst i x
      cloneLoop T q dst last fuel (if i = wsub q.cap 1 then 0 else i + 1)

/-- `clone` (`rpp/queue.h:67-94`): memcpy of the whole buffer, or the loop above. -/
def clone (T : Traits) (q : Queue) : M α Queue := do
  let p ← alloc q.cap
  (if T.triv then memcpy p 0 q.data 0 q.cap
   else cloneLoop T q p (endIdx q) (q.cap + 1) (startIdx q))
  return { q with data := p }

/-- The loop of `erase_first` (`rpp/queue.h:243-263`) from `consumed` on, `n` iterations left.
Returns `found`. -/
def eraseLoop [DecidableEq α] (T : Traits) (q : Queue) (value : α) : Nat → Nat → Bool → M α Bool
  | 0, _, found => pure found
  | n + 1, idx, found => do
    let next := if idx = wsub q.cap 1 then 0 else idx + 1
    let found ← (if found then do
        -- memcpy of one element / move construction, line 249-254
        let x ← moveOut T q.data idx
        construct T q.data next x
        pure true
      else do
        let x ← readAt q.data idx
        (if x = value then do
          destroy T q.data idx
          pure true
         else pure false))
    eraseLoop T q value n next found

/-- `erase_first` (`rpp/queue.h:240-269`). -/
def eraseFirst [DecidableEq α] (T : Traits) (q : Queue) (value : α) : M α (Bool × Queue) := do
  let found ← eraseLoop T q value q.len (startIdx q) false
  return (found, if found then
      { q with len := q.len - 1, last := if q.last ≠ 0 then q.last - 1 else wsub q.cap 1 }
    else q)

end Queue

/-! ## Client programs over queue variables -/

open Spec (QOp Out upd)

/-- Queue variables of a client and the memory they use. -/
structure QWorld (α : Type _) where
  vars : Nat → Queue
  heap : Heap α

namespace QWorld
variable {α : Type _}

/-- All variables default constructed, no memory in use. -/
def init (lim : Nat) : QWorld α := ⟨fun _ => Queue.nil, Heap.empty lim⟩

/-- Run a member function that updates variable `x`. -/
def on (w : QWorld α) (x : Nat) (f : Queue → M α Queue) : Res (Out α × QWorld α) := do
  let (v, h) ← f (w.vars x) w.heap
  return (.unit, ⟨upd w.vars x v, h⟩)

/-- Run a member function that returns a value. -/
def query (w : QWorld α) (x : Nat) (f : Queue → M α (Out α)) : Res (Out α × QWorld α) := do
  let (o, h) ← f (w.vars x) w.heap
  return (o, ⟨w.vars, h⟩)

/-- `operator=(Queue&& src)` (`rpp/queue.h:47-58`). -/
def moveAssign (T : Traits) (w : QWorld α) (x y : Nat) : Res (QWorld α) := do
  let (v, h) ← Queue.dtor T (w.vars x) w.heap
  let vars1 := upd w.vars x v
  let vars2 := upd vars1 x (vars1 y)
  let vars3 := upd vars2 y Queue.nil
  return ⟨vars3, h⟩

/-- Move-assignment from a temporary, followed by the temporary's destructor
(`rpp/queue.h:47-65`). -/
def assignTemp (T : Traits) (w : QWorld α) (x : Nat) (tmp : M α Queue) : Res (QWorld α) := do
  let (t, h) ← tmp w.heap
  let (_, h) ← Queue.dtor T (w.vars x) h
  let vars := upd w.vars x t
  let (_, h) ← Queue.dtor T Queue.nil h
  return ⟨vars, h⟩

/-- `x.erase_first(a)`, with the returned `bool` as 0/1. -/
def erase [DecidableEq α] (T : Traits) (w : QWorld α) (x : Nat) (a : α) : Res (Out α × QWorld α) := do
  let ((found, q), h) ← Queue.eraseFirst T (w.vars x) a w.heap
  return (.num (if found then 1 else 0), ⟨upd w.vars x q, h⟩)

/-- One client operation. -/
def step [DecidableEq α] (T : Traits) (w : QWorld α) : QOp α → Res (Out α × QWorld α)
  | .fresh x n => do return (.unit, ← assignTemp T w x (Queue.withCapacity n))
  | .push x a => w.on x (fun v => Queue.push T v a)
  | .pushOwn x i => w.on x (fun v => Queue.pushOwn T v i)
  | .pop x => w.on x (Queue.pop T)
  | .clear x => w.on x (Queue.clear T)
  | .reserve x n => w.on x (fun v => Queue.reserve T v n)
  | .set x i a => w.on x (fun v => do Queue.set v i a; return v)
  | .moveAssign x y => do return (.unit, ← moveAssign T w x y)
  | .cloneAssign x y => do return (.unit, ← assignTemp T w x (Queue.clone T (w.vars y)))
  | .eraseFirst x a => erase T w x a
  | .scopeEnd x => w.on x (Queue.dtor T)
  | .get x i => w.query x (fun v => do return .val (← Queue.get v i))
  | .front x => w.query x (fun v => do return .val (← Queue.front v))
  | .back x => w.query x (fun v => do return .val (← Queue.back v))
  | .penultimate x => w.query x (fun v => do return .val (← Queue.penultimate v))
  | .length x => w.query x (fun v => return .num v.len)
  | .elems x => w.query x (fun v => do return .list (← Queue.iterate v 0 v.len))

/-- A client program. -/
def run [DecidableEq α] (T : Traits) : QWorld α → List (QOp α) → Res (List (Out α) × QWorld α)
  | w, [] => .ok ([], w)
  | w, op :: ops => do
    let (o, w) ← step T w op
    let (os, w) ← run T w ops
    return (o :: os, w)

/-- End of the program: the variables `xs` are destroyed. -/
def finish (T : Traits) : QWorld α → List Nat → Res (QWorld α)
  | w, [] => .ok w
  | w, x :: xs => do
    let (_, w) ← w.on x (Queue.dtor T)
    finish T w xs

end QWorld
end Rpp
