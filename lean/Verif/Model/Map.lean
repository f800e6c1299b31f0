import Verif.Model.Mem
import Verif.Model.Math

/-!
# Model of `rpp::Map` (`rpp/map.h`)

An open addressing hash table with Robin Hood probing and backward-shift deletion.

The table is the list of its slots (`data_[0 .. capacity_)`); a slot is empty (`hash == EMPTY`) or
holds a hash, a key and a value. `H` is `hash_nonzero` of the key type, `=` on `K` its `operator==`.
Slots are moved whole, so construction and destruction of the pair is not separated from the slot
(`rpp/map.h:15-64`). Loops that need not end take `fuel`; running out of it is the outcome `hang`.
`capacity_ * sizeof(Slot)` and `2 * capacity_` are taken not to overflow: `lim` is the largest
number of slots the allocator can provide.
-/

namespace Rpp

/-- A slot in use (`rpp/map.h:15-64`); an empty one is `none`. -/
structure Slot (K V : Type _) where
  hash : Nat
  key : K
  val : V
  deriving DecidableEq, Repr

/-- `rpp/map.h:464-468`. -/
structure Map (K V : Type _) where
  data : List (Option (Slot K V))
  cap : Nat
  len : Nat
  usable : Nat
  shift : Nat
  deriving DecidableEq, Repr

namespace Map
variable {K V : Type _} [DecidableEq K]

/-- `Map() = default` (`rpp/map.h:78`). -/
def nil : Map K V := ⟨[], 0, 0, 0, 0⟩

/-- `x >> shift_`, undefined for shifts of 64 or more. -/
def shr (x shift : Nat) : Res Nat :=
  if shift < 64 then .ok (x / 2 ^ shift) else .error .ub

/-- `A::alloc(capacity * sizeof(Slot))` followed by the `memset` to zero (`rpp/map.h:85-86,163-164`). -/
def allocZero (lim n : Nat) : Res (List (Option (Slot K V))) :=
  if n > lim then .error .oom else .ok (List.replicate n none)

/-- `Map(u64 capacity)` (`rpp/map.h:80-87`). -/
def withCapacity (lim capacity : Nat) : Res (Map K V) := do
  let cap ← Math.next_pow2 64 capacity
  let data ← allocZero lim cap
  return ⟨data, cap, 0, cap / 4 * 3, Math.ctlz 64 cap + 1⟩

/-- `hashidx <= idx ? idx - hashidx : capacity_ + idx - hashidx` (`rpp/map.h:262-263,422-423,456-457`). -/
def pdist (cap a idx : Nat) : Nat := if a ≤ idx then idx - a else cap + idx - a

/-- `if(++idx == capacity_) idx = 0;`. -/
def nxt (cap idx : Nat) : Nat := if idx + 1 = cap then 0 else idx + 1

/-- The loop of `insert_slot` (`rpp/map.h:411-430`): the table and the index that is returned. -/
def insertLoop (cap shift : Nat) : Nat → List (Option (Slot K V)) → Slot K V → Nat → Nat →
    Option Nat → Res (List (Option (Slot K V)) × Nat)
  | 0, _, _, _, _, _ => .error .hang
  | fuel + 1, tab, slot, idx, dist, placement =>
    match tab[idx]? with
    | none => .error .ub
    | some none => .ok (tab.set idx (some slot), placement.getD idx)
    | some (some s) =>
      if s.hash = slot.hash ∧ s.key = slot.key then .ok (tab.set idx (some slot), idx)
      else do
        let hashidx ← shr s.hash shift
        let hashdist := pdist cap hashidx idx
        if hashdist < dist then
          insertLoop cap shift fuel (tab.set idx (some slot)) s (nxt cap idx) (hashdist + 1)
            (some (placement.getD idx))
        else
          insertLoop cap shift fuel tab slot (nxt cap idx) (dist + 1) placement

/-- `insert_slot` (`rpp/map.h:407-431`). -/
def insert_slot (fuel cap shift : Nat) (tab : List (Option (Slot K V))) (slot : Slot K V) :
    Res (List (Option (Slot K V)) × Nat) := do
  let idx ← shr slot.hash shift
  insertLoop cap shift fuel tab slot idx 0 none

/-- The rehashing loop of `reserve` (`rpp/map.h:168-171`) over the rest of the old table. -/
def rehash (fuel cap shift : Nat) : List (Option (Slot K V)) → List (Option (Slot K V)) →
    Res (List (Option (Slot K V)))
  | [], tab => .ok tab
  | none :: old, tab => rehash fuel cap shift old tab
  | some s :: old, tab => do
    let (tab, _) ← insert_slot fuel cap shift tab s
    rehash fuel cap shift old tab

/-- `reserve` (`rpp/map.h:155-172`). Note that the capacity is not rounded to a power of two. -/
def reserve (lim : Nat) (m : Map K V) (new_capacity : Nat) : Res (Map K V) := do
  if new_capacity ≤ m.cap then return m
  let data ← allocZero lim new_capacity
  let shift := Math.ctlz 64 new_capacity + 1
  let data ← rehash (new_capacity + 2) new_capacity shift m.data data
  return ⟨data, new_capacity, m.len, new_capacity / 4 * 3, shift⟩

/-- `grow` (`rpp/map.h:174-177`). -/
def grow (lim : Nat) (m : Map K V) : Res (Map K V) :=
  reserve lim m (if m.cap ≠ 0 then 2 * m.cap else 32)

/-- `clear` (`rpp/map.h:179-188`). -/
def clear (m : Map K V) : Map K V :=
  { m with data := List.replicate m.cap none, len := 0 }

/-- `empty` (`rpp/map.h:190-192`). -/
def isEmpty (m : Map K V) : Bool := m.len = 0

/-- `full` (`rpp/map.h:193-195`). -/
def isFull (m : Map K V) : Bool := m.len = m.usable

/-- `insert(K&&, V&&)` (`rpp/map.h:218-224`) and `emplace` (226-234): new map, index of the slot whose
value is returned by reference. -/
def insert (H : K → Nat) (lim : Nat) (m : Map K V) (key : K) (val : V) : Res (Map K V × Nat) := do
  let m ← (if m.isFull then grow lim m else pure m)
  let (data, i) ← insert_slot (m.cap + 2) m.cap m.shift m.data ⟨H key, key, val⟩
  return ({ m with data := data, len := m.len + 1 }, i)

/-- The loop of `try_get_` (`rpp/map.h:450-461`). -/
def findLoop (cap shift : Nat) (tab : List (Option (Slot K V))) (hash : Nat) (key : K) :
    Nat → Nat → Nat → Res (Option Nat)
  | 0, _, _ => .error .hang
  | fuel + 1, idx, dist =>
    match tab[idx]? with
    | none => .error .ub
    | some none => .ok none
    | some (some s) =>
      if s.hash = hash ∧ s.key = key then .ok (some idx)
      else do
        let kidx ← shr s.hash shift
        if pdist cap kidx idx < dist then return none
        findLoop cap shift tab hash key fuel (nxt cap idx) (dist + 1)

/-- `try_get_` (`rpp/map.h:445-462`). -/
def find (H : K → Nat) (m : Map K V) (key : K) : Res (Option Nat) := do
  let idx ← shr (H key) m.shift
  findLoop m.cap m.shift m.data (H key) key (m.cap + 2) idx 0

/-- `data_[idx].data->second`. -/
def valAt (m : Map K V) (i : Nat) : Res V :=
  match m.data[i]? with
  | some (some s) => .ok s.val
  | _ => .error .ub

/-- `try_get` (`rpp/map.h:236-250`, `280-288` for string keys). -/
def try_get (H : K → Nat) (m : Map K V) (key : K) : Res (Option V) := do
  if m.isEmpty then return none
  match ← find H m key with
  | some i => return some (← m.valAt i)
  | none => return none

/-- `get(const K&)` (`rpp/map.h:303-313`). -/
def get (H : K → Nat) (m : Map K V) (key : K) : Res V := do
  match ← try_get H m key with
  | some v => return v
  | none => .error .die

/-- `get(String_View)` (`rpp/map.h:290-297`): as `get`, but without the check for the empty map. -/
def getView (H : K → Nat) (m : Map K V) (key : K) : Res V := do
  match ← find H m key with
  | some i => m.valAt i
  | none => .error .die

/-- `contains` (`rpp/map.h:273-278,299-301`). -/
def contains (H : K → Nat) (m : Map K V) (key : K) : Res Bool := do
  return (← try_get H m key).isSome

/-- `get(key) = v`, an assignment through the reference. -/
def assign (H : K → Nat) (m : Map K V) (key : K) (v : V) : Res (Map K V) := do
  if m.isEmpty then .error .die
  match ← find H m key with
  | some i =>
    match m.data[i]? with
    | some (some s) => return { m with data := m.data.set i (some { s with val := v }) }
    | _ => .error .ub
  | none => .error .die

/-- The loop of `fix_up` (`rpp/map.h:433-443`). `data_[idx] = move(data_[next])` leaves `next` empty. -/
def fixLoop (cap shift : Nat) : Nat → List (Option (Slot K V)) → Nat →
    Res (List (Option (Slot K V)))
  | 0, _, _ => .error .hang
  | fuel + 1, tab, idx => do
    let next := if idx = cap - 1 then 0 else idx + 1
    match tab[next]? with
    | none => .error .ub
    | some none => return tab
    | some (some s) =>
      let next_ideal ← shr s.hash shift
      if next = next_ideal then return tab
      fixLoop cap shift fuel ((tab.set idx (some s)).set next none) next

/-- The loop of `try_erase` (`rpp/map.h:257-268`). An empty slot (`k = 0`) does not stop it; its
`kidx` is 0. -/
def eraseLoop (cap shift : Nat) (tab : List (Option (Slot K V))) (hash : Nat) (key : K) :
    Nat → Nat → Nat → Res (Option (List (Option (Slot K V))))
  | 0, _, _ => .error .hang
  | fuel + 1, idx, dist =>
    match tab[idx]? with
    | none => .error .ub
    | some o => do
      if o.any (fun s => s.hash = hash ∧ s.key = key) then
        let tab ← fixLoop cap shift (cap + 2) (tab.set idx none) idx
        return some tab
      let kidx ← shr (o.elim 0 Slot.hash) shift
      if pdist cap kidx idx < dist then return none
      eraseLoop cap shift tab hash key fuel (nxt cap idx) (dist + 1)

/-- `try_erase` (`rpp/map.h:252-271`). -/
def try_erase (H : K → Nat) (m : Map K V) (key : K) : Res (Map K V × Bool) := do
  if m.isEmpty then return (m, false)
  let idx ← shr (H key) m.shift
  match ← eraseLoop m.cap m.shift m.data (H key) key (m.cap + 2) idx 0 with
  | some data => return ({ m with data := data, len := m.len - 1 }, true)
  | none => return (m, false)

/-- `erase` (`rpp/map.h:315-317`). -/
def erase (H : K → Nat) (m : Map K V) (key : K) : Res (Map K V) := do
  let (m, ok) ← try_erase H m key
  if ok then return m else .error .die

/-- `get_or_insert` (`rpp/map.h:319-337`): new map and the value the reference denotes; `d` is `V{}`. -/
def get_or_insert (H : K → Nat) (lim : Nat) (d : V) (m : Map K V) (key : K) :
    Res (Map K V × V) := do
  match ← try_get H m key with
  | some v => return (m, v)
  | none =>
    let (m, i) ← insert H lim m key d
    return (m, ← m.valAt i)

/-- `clone` (`rpp/map.h:139-153`): the new map is made with `Map(capacity_)`, which rounds the capacity
up; the slots are copied index by index (both branches of the `if constexpr`). -/
def clone (lim : Nat) (m : Map K V) : Res (Map K V) := do
  let ret : Map K V ← withCapacity lim m.cap
  if m.cap ≤ ret.data.length then
    return { ret with len := m.len, data := m.data ++ ret.data.drop m.cap }
  else .error .ub

/-- `Iterator::skip` (`rpp/map.h:378-380`), `n` slots left. -/
def skip (m : Map K V) : Nat → Nat → Res Nat
  | 0, count => .ok count
  | n + 1, count =>
    if count < m.cap then
      match m.data[count]? with
      | none => .error .ub
      | some none => skip m n (count + 1)
      | some (some _) => .ok count
    else .ok count

/-- `for(auto& item : map)` (`rpp/map.h:339-404`): the entries in the order visited. -/
def iterLoop (m : Map K V) : Nat → Nat → Res (List (K × V))
  | 0, _ => .error .hang
  | fuel + 1, count =>
    if count = m.cap then .ok []
    else
      match m.data[count]? with
      | some (some s) => do
        let count ← skip m m.cap (count + 1)
        let rest ← iterLoop m fuel count
        return (s.key, s.val) :: rest
      | _ => .error .ub

/-- The whole traversal from `begin()` to `end()`. -/
def iter (m : Map K V) : Res (List (K × V)) := do
  let count ← skip m m.cap 0
  iterLoop m (m.cap + 2) count

end Map

end Rpp
