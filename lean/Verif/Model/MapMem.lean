import Verif.Model.Map

/-!
# `rpp::Map` in storage (`rpp/map.h`), for key and value types with destructors

`Model/Map` moves slots as a whole. Here a slot is what it is in memory: a hash word and storage that
is raw or holds a live pair. Slots are constructed, moved, assigned and destroyed by the members of
`Map_Slot`; every pair that is constructed and every pair that is destroyed is recorded.

The types are taken to need destruction (`Must_Destruct<Pair<K, V>>`), the case in which ownership
matters. A moved-from pair is raw storage: nothing destroys it (`rpp/map.h:32-43` marks its slot
EMPTY first). Reading raw storage or destroying it is `ub`, constructing over a live pair or releasing
the storage of a live pair is `leak`. `fuel` bounds the iterations of each loop.
-/

namespace Rpp.MapMem

/-- `Map_Slot` (`rpp/map.h:61-63`): `data = none` is raw storage. -/
structure Cell (K V : Type _) where
  hash : Nat
  data : Option (K × V)
  deriving DecidableEq, Repr

/-- Pairs constructed and destroyed so far. -/
structure Ledger (K V : Type _) where
  made : List (K × V) := []
  dead : List (K × V) := []
  deriving DecidableEq, Repr

/-- Code that constructs and destroys pairs. -/
abbrev S (K V : Type _) (α : Type _) := StateT (Ledger K V) Res α

/-- A map in memory (`rpp/map.h:464-468`). -/
structure LMap (K V : Type _) where
  data : List (Cell K V)
  cap : Nat
  len : Nat
  usable : Nat
  shift : Nat
  deriving DecidableEq, Repr

section
variable {K V : Type} [DecidableEq K]

/-- `Map() = default` (`rpp/map.h:78`). -/
def LMap.nil : LMap K V := ⟨[], 0, 0, 0, 0⟩

/-- End with `e`. -/
def fail {α : Type} (e : Err) : S K V α := fun _ => .error e

/-- Code without effect on pairs. -/
def pureRes {α : Type} (r : Res α) : S K V α := fun l => r.map (·, l)

/-- `Map_Slot(K&& key, V&& value)` (`rpp/map.h:19-21`). -/
def newSlot (H : K → Nat) (k : K) (v : V) : S K V (Cell K V) :=
  fun l => .ok (⟨H k, some (k, v)⟩, { l with made := (k, v) :: l.made })

/-- `~Map_Slot()` (`rpp/map.h:22-27`). -/
def dtor (c : Cell K V) : S K V (Cell K V) := fun l =>
  if c.hash ≠ 0 then
    match c.data with
    | some p => .ok (⟨0, none⟩, { l with dead := p :: l.dead })
    | none => .error .ub
  else .ok (⟨0, c.data⟩, l)

/-- The end of a slot's storage, after its destructor: a pair still alive in it is lost. -/
def release (c : Cell K V) : S K V Unit := fun l => if c.data.isSome then .error .leak else .ok ((), l)

/-- `Map_Slot(Map_Slot&& src)` (`rpp/map.h:32-36`) into storage `raw`; the new slot and the source. -/
def moveCtor (raw : Option (K × V)) (src : Cell K V) : S K V (Cell K V × Cell K V) := fun l =>
  if src.hash ≠ 0 then
    match raw, src.data with
    | some _, _ => .error .leak
    | none, some p => .ok ((⟨src.hash, some p⟩, ⟨0, none⟩), l)
    | none, none => .error .ub
  else .ok ((⟨0, raw⟩, ⟨0, src.data⟩), l)

/-- `operator=(Map_Slot&& src)` between different slots (`rpp/map.h:37-43`). -/
def assign (dst src : Cell K V) : S K V (Cell K V × Cell K V) := do
  let dst ← dtor dst
  moveCtor dst.data src

/-- `swap(a, b)` (`rpp/utility.h:630-642`, the branch for types that are not trivially movable). -/
def swap (a b : Cell K V) : S K V (Cell K V × Cell K V) := do
  let (tmp, a) ← moveCtor none a
  let (a, b) ← assign a b
  let (b, tmp) ← assign b tmp
  let tmp ← dtor tmp
  release tmp
  return (a, b)

/-- `slot.data->first`. -/
def keyOf (c : Cell K V) : Res K :=
  match c.data with
  | some p => .ok p.1
  | none => .error .ub

/-- `slot.data->second`. -/
def valOf (c : Cell K V) : Res V :=
  match c.data with
  | some p => .ok p.2
  | none => .error .ub

/-- `hash == slot.hash && data_[idx].data->first == key`; the key is read only if the hashes agree. -/
def same (c : Cell K V) (hash : Nat) (key : Res K) : Res Bool :=
  if c.hash = hash then do return decide ((← keyOf c) = (← key)) else return false

/-- The loop of `insert_slot` (`rpp/map.h:411-430`): the table, the slot that was passed in, and the
index that is returned. -/
def insertLoop (cap shift : Nat) : Nat → List (Cell K V) → Cell K V → Nat → Nat → Option Nat →
    S K V (List (Cell K V) × Cell K V × Nat)
  | 0, _, _, _, _, _ => fail .hang
  | fuel + 1, tab, slot, idx, dist, placement =>
    match tab[idx]? with
    | none => fail .ub
    | some c =>
      if c.hash = 0 then do
        let (c, slot) ← assign c slot
        return (tab.set idx c, slot, placement.getD idx)
      else do
        if ← pureRes (same c slot.hash (keyOf slot)) then
          let (c, slot) ← assign c slot
          return (tab.set idx c, slot, idx)
        else
          let hashidx ← pureRes (Map.shr c.hash shift)
          let hashdist := Map.pdist cap hashidx idx
          if hashdist < dist then
            let (c, slot) ← swap c slot
            insertLoop cap shift fuel (tab.set idx c) slot (Map.nxt cap idx) (hashdist + 1)
              (some (placement.getD idx))
          else
            insertLoop cap shift fuel tab slot (Map.nxt cap idx) (dist + 1) placement

/-- `insert_slot` (`rpp/map.h:407-431`). -/
def insert_slot (fuel cap shift : Nat) (tab : List (Cell K V)) (slot : Cell K V) :
    S K V (List (Cell K V) × Cell K V × Nat) := do
  let idx ← pureRes (Map.shr slot.hash shift)
  insertLoop cap shift fuel tab slot idx 0 none

/-- The rehashing loop of `reserve` (`rpp/map.h:167-170`): the old table is left behind. -/
def rehash (fuel cap shift : Nat) : List (Cell K V) → List (Cell K V) →
    S K V (List (Cell K V) × List (Cell K V))
  | [], tab => return ([], tab)
  | c :: old, tab => do
    if c.hash ≠ 0 then
      let (tab, c, _) ← insert_slot fuel cap shift tab c
      let (old, tab) ← rehash fuel cap shift old tab
      return (c :: old, tab)
    else
      let (old, tab) ← rehash fuel cap shift old tab
      return (c :: old, tab)

/-- `A::free(data)`: pairs that are still alive are lost. -/
def freeTab (tab : List (Cell K V)) : S K V Unit := fun l =>
  if tab.any (fun c => c.data.isSome) then .error .leak else .ok ((), l)

/-- `A::alloc(n * sizeof(Slot))` and the `memset` (`rpp/map.h:85-86,162-163`). -/
def allocZero (lim n : Nat) : S K V (List (Cell K V)) :=
  if n > lim then fail .oom else return List.replicate n ⟨0, none⟩

/-- `Map(u64 capacity)` (`rpp/map.h:80-87`). -/
def withCapacity (lim capacity : Nat) : S K V (LMap K V) := do
  let cap ← pureRes (Math.next_pow2 64 capacity)
  let data ← allocZero lim cap
  return ⟨data, cap, 0, cap / 4 * 3, Math.ctlz 64 cap + 1⟩

/-- `reserve` (`rpp/map.h:155-172`). -/
def reserve (fuel : Nat → Nat) (lim : Nat) (m : LMap K V) (new_capacity : Nat) : S K V (LMap K V) := do
  if new_capacity ≤ m.cap then return m
  else
    let data ← allocZero lim new_capacity
    let shift := Math.ctlz 64 new_capacity + 1
    let (old, data) ← rehash (fuel new_capacity) new_capacity shift m.data data
    freeTab old
    return ⟨data, new_capacity, m.len, new_capacity / 4 * 3, shift⟩

/-- `insert(K&&, V&&)` (`rpp/map.h:218-224`) and `emplace` (226-234): the local slot is destroyed at the
end of the scope. -/
def insert (fuel : Nat → Nat) (H : K → Nat) (lim : Nat) (m : LMap K V) (key : K) (val : V) :
    S K V (LMap K V × Nat) := do
  let m ← (if m.len = m.usable then reserve fuel lim m (if m.cap ≠ 0 then 2 * m.cap else 32) else return m)
  let slot ← newSlot H key val
  let (data, slot, i) ← insert_slot (fuel m.cap) m.cap m.shift m.data slot
  let slot ← dtor slot
  release slot
  return ({ m with data := data, len := m.len + 1 }, i)

/-- The loop of `try_get_` (`rpp/map.h:450-461`). -/
def findLoop (cap shift : Nat) (tab : List (Cell K V)) (hash : Nat) (key : K) :
    Nat → Nat → Nat → Res (Option Nat)
  | 0, _, _ => .error .hang
  | fuel + 1, idx, dist =>
    match tab[idx]? with
    | none => .error .ub
    | some c =>
      if c.hash = 0 then .ok none
      else do
        if ← same c hash (.ok key) then return some idx
        else
          let kidx ← Map.shr c.hash shift
          if Map.pdist cap kidx idx < dist then return none
          else findLoop cap shift tab hash key fuel (Map.nxt cap idx) (dist + 1)

/-- `try_get_` (`rpp/map.h:445-462`). -/
def find (fuel : Nat → Nat) (H : K → Nat) (m : LMap K V) (key : K) : Res (Option Nat) := do
  let idx ← Map.shr (H key) m.shift
  findLoop m.cap m.shift m.data (H key) key (fuel m.cap) idx 0

/-- `data_[i].data->second`. -/
def valAt (m : LMap K V) (i : Nat) : Res V :=
  match m.data[i]? with
  | some c => valOf c
  | none => .error .ub

/-- `try_get` (`rpp/map.h:236-250`). -/
def try_get (fuel : Nat → Nat) (H : K → Nat) (m : LMap K V) (key : K) : Res (Option V) := do
  if m.len = 0 then return none
  else match ← find fuel H m key with
    | some i => return some (← valAt m i)
    | none => return none

/-- The loop of `fix_up` (`rpp/map.h:433-443`). With one slot, `data_[idx] = move(data_[next])` assigns
the slot to itself: the destructor runs, and the slot is empty. -/
def fixLoop (cap shift : Nat) : Nat → List (Cell K V) → Nat → S K V (List (Cell K V))
  | 0, _, _ => fail .hang
  | fuel + 1, tab, idx => do
    let next := if idx = cap - 1 then 0 else idx + 1
    match tab[next]?, tab[idx]? with
    | some s, some c =>
      if s.hash = 0 then return tab
      else
        let next_ideal ← pureRes (Map.shr s.hash shift)
        if next = next_ideal then return tab
        else if next = idx then
          let c ← dtor c
          fixLoop cap shift fuel (tab.set idx c) next
        else
          let (c, s) ← assign c s
          fixLoop cap shift fuel ((tab.set idx c).set next s) next
    | _, _ => fail .ub

/-- The loop of `try_erase` (`rpp/map.h:257-270`); `f` bounds the loop of `fix_up`. -/
def eraseLoop (f cap shift : Nat) (tab : List (Cell K V)) (hash : Nat) (key : K) :
    Nat → Nat → Nat → S K V (Option (List (Cell K V)))
  | 0, _, _ => fail .hang
  | fuel + 1, idx, dist =>
    match tab[idx]? with
    | none => fail .ub
    | some c => do
      if ← pureRes (same c hash (.ok key)) then
        let c ← dtor c
        let tab ← fixLoop cap shift f (tab.set idx c) idx
        return some tab
      else
        let kidx ← pureRes (Map.shr c.hash shift)
        if Map.pdist cap kidx idx < dist then return none
        else eraseLoop f cap shift tab hash key fuel (Map.nxt cap idx) (dist + 1)

/-- `try_erase` (`rpp/map.h:252-271`). -/
def try_erase (fuel : Nat → Nat) (H : K → Nat) (m : LMap K V) (key : K) : S K V (LMap K V × Bool) := do
  if m.len = 0 then return (m, false)
  else
    let idx ← pureRes (Map.shr (H key) m.shift)
    match ← eraseLoop (fuel m.cap) m.cap m.shift m.data (H key) key (fuel m.cap) idx 0 with
    | some data => return ({ m with data := data, len := m.len - 1 }, true)
    | none => return (m, false)

/-- `for(u64 i = 0; i < capacity_; i++) data_[i].~Slot();` (`rpp/map.h:127-129,181-183`). -/
def dtorAll : List (Cell K V) → S K V (List (Cell K V))
  | [] => return []
  | c :: tab => do
    let c ← dtor c
    let tab ← dtorAll tab
    return c :: tab

/-- `clear` (`rpp/map.h:179-188`). -/
def clear (m : LMap K V) : S K V (LMap K V) := do
  let data ← dtorAll m.data
  return { m with data := data, len := 0 }

/-- `~Map()` (`rpp/map.h:125-137`). -/
def destroy (m : LMap K V) : S K V (LMap K V) := do
  let data ← dtorAll m.data
  freeTab data
  return LMap.nil

/-- The loop of `clone` (`rpp/map.h:148-150`) over the slots of both tables: `Slot{data_[i].clone()}` is
constructed in place from a copy of the key and the value (45-59). -/
def cloneLoop (H : K → Nat) : List (Cell K V) → List (Cell K V) → S K V (List (Cell K V))
  | [], ret => return ret
  | _ :: _, [] => fail .ub
  | c :: src, r :: ret => do
    if c.hash ≠ 0 then
      let k ← pureRes (keyOf c)
      let v ← pureRes (valOf c)
      release r
      let c ← newSlot H k v
      let ret ← cloneLoop H src ret
      return c :: ret
    else
      let ret ← cloneLoop H src ret
      return r :: ret

/-- `clone` (`rpp/map.h:139-153`). -/
def clone (H : K → Nat) (lim : Nat) (m : LMap K V) : S K V (LMap K V) := do
  let ret ← withCapacity lim m.cap
  let data ← cloneLoop H m.data ret.data
  return { ret with len := m.len, data := data }

/-- `get_or_insert` (`rpp/map.h:319-337`); `d` is `V{}`. -/
def get_or_insert (fuel : Nat → Nat) (H : K → Nat) (lim : Nat) (d : V) (m : LMap K V) (key : K) :
    S K V (LMap K V × V) := do
  match ← pureRes (try_get fuel H m key) with
  | some v => return (m, v)
  | none =>
    let (m, i) ← insert fuel H lim m key d
    return (m, ← pureRes (valAt m i))

/-- `get(const K&)` (`rpp/map.h:303-313`). -/
def get (fuel : Nat → Nat) (H : K → Nat) (m : LMap K V) (key : K) : Res V := do
  match ← try_get fuel H m key with
  | some v => return v
  | none => .error .die

/-- `contains` (`rpp/map.h:273-278`). -/
def contains (fuel : Nat → Nat) (H : K → Nat) (m : LMap K V) (key : K) : Res Bool := do
  return (← try_get fuel H m key).isSome

/-- `erase` (`rpp/map.h:315-317`). -/
def erase (fuel : Nat → Nat) (H : K → Nat) (m : LMap K V) (key : K) : S K V (LMap K V) := do
  let (m, ok) ← try_erase fuel H m key
  if ok then return m else fail .die

/-- `slot.data->second = v`: recorded as the end of the pair with the old value and the start of one
with the new value. -/
def setVal (c : Cell K V) (v : V) : S K V (Cell K V) := fun l =>
  match c.data with
  | some p => .ok (⟨c.hash, some (p.1, v)⟩, { made := (p.1, v) :: l.made, dead := p :: l.dead })
  | none => .error .ub

/-- `get(key) = v`, an assignment through the reference (`rpp/map.h:303-313`). -/
def assignAt (fuel : Nat → Nat) (H : K → Nat) (m : LMap K V) (key : K) (v : V) : S K V (LMap K V) := do
  if m.len = 0 then fail .die
  else match ← pureRes (find fuel H m key) with
    | some i =>
      match m.data[i]? with
      | some c =>
        let c ← setVal c v
        return { m with data := m.data.set i c }
      | none => fail .ub
    | none => fail .die

/-- `Iterator::skip` (`rpp/map.h:378-380`), `n` slots left. -/
def skip (m : LMap K V) : Nat → Nat → Res Nat
  | 0, count => .ok count
  | n + 1, count =>
    if count < m.cap then
      match m.data[count]? with
      | none => .error .ub
      | some c => if c.hash = 0 then skip m n (count + 1) else .ok count
    else .ok count

/-- `for(auto& item : map)` (`rpp/map.h:339-404`): the entries in the order visited. -/
def iterLoop (m : LMap K V) : Nat → Nat → Res (List (K × V))
  | 0, _ => .error .hang
  | fuel + 1, count =>
    if count = m.cap then .ok []
    else
      match m.data[count]? with
      | some c => do
        let k ← keyOf c
        let v ← valOf c
        let count ← skip m m.cap (count + 1)
        let rest ← iterLoop m fuel count
        return (k, v) :: rest
      | none => .error .ub

/-- The whole traversal from `begin()` to `end()`. -/
def iter (fuel : Nat → Nat) (m : LMap K V) : Res (List (K × V)) := do
  let count ← skip m m.cap 0
  iterLoop m (fuel m.cap) count

/-! ### Programs over several maps -/

/-- Operations of a program; maps are named by numbers. -/
inductive Op (K V : Type _) where
  /-- `x = Map(n)` -/
  | make (x n : Nat)
  | insert (x : Nat) (k : K) (v : V)
  | tryGet (x : Nat) (k : K)
  /-- `x.get(k) = v` -/
  | assign (x : Nat) (k : K) (v : V)
  /-- `for(auto& item : x)` -/
  | iterate (x : Nat)
  | tryErase (x : Nat) (k : K)
  | getOrInsert (x : Nat) (k : K)
  | reserve (x n : Nat)
  | clear (x : Nat)
  /-- `x = move(y)` -/
  | move (x y : Nat)
  /-- `x = y.clone()` -/
  | clone (x y : Nat)
  deriving DecidableEq, Repr

/-- `x = move(tmp)` for a temporary (`rpp/map.h:110-123`). -/
def store (vars : List (LMap K V)) (x : Nat) (tmp : LMap K V) : S K V (List (LMap K V)) := do
  match vars[x]? with
  | none => fail .die
  | some m =>
    let _ ← destroy m
    return vars.set x tmp

/-- Run one operation; a name that is not declared is `die`. -/
def step (fuel : Nat → Nat) (H : K → Nat) (lim : Nat) (d : V) (vars : List (LMap K V)) :
    Op K V → S K V (List (LMap K V))
  | .make x n => do store vars x (← withCapacity lim n)
  | .insert x k v => do
    match vars[x]? with
    | none => fail .die
    | some m => return vars.set x (← insert fuel H lim m k v).1
  | .tryGet x k => do
    match vars[x]? with
    | none => fail .die
    | some m =>
      let _ ← pureRes (try_get fuel H m k)
      return vars
  | .assign x k v => do
    match vars[x]? with
    | none => fail .die
    | some m => return vars.set x (← assignAt fuel H m k v)
  | .iterate x => do
    match vars[x]? with
    | none => fail .die
    | some m =>
      let _ ← pureRes (iter fuel m)
      return vars
  | .tryErase x k => do
    match vars[x]? with
    | none => fail .die
    | some m => return vars.set x (← try_erase fuel H m k).1
  | .getOrInsert x k => do
    match vars[x]? with
    | none => fail .die
    | some m => return vars.set x (← get_or_insert fuel H lim d m k).1
  | .reserve x n => do
    match vars[x]? with
    | none => fail .die
    | some m => return vars.set x (← reserve fuel lim m n)
  | .clear x => do
    match vars[x]? with
    | none => fail .die
    | some m => return vars.set x (← clear m)
  | .move x y => do
    match vars[y]?, vars[x]? with
    | some src, some m =>
      let m ← destroy m
      -- for `x = y` the source is the map just destroyed
      if x = y then return vars.set x m
      else return (vars.set x src).set y LMap.nil
    | _, _ => fail .die
  | .clone x y => do
    match vars[y]? with
    | none => fail .die
    | some src => store vars x (← clone H lim src)

/-- Run a program. -/
def exec (fuel : Nat → Nat) (H : K → Nat) (lim : Nat) (d : V) :
    List (LMap K V) → List (Op K V) → S K V (List (LMap K V))
  | vars, [] => return vars
  | vars, op :: ops => do exec fuel H lim d (← step fuel H lim d vars op) ops

/-- The destructors at the end of the program. -/
def destroyAll : List (LMap K V) → S K V Unit
  | [] => return ()
  | m :: vars => do
    let _ ← destroy m
    destroyAll vars

/-- A program that declares `n` maps, runs `ops` and ends. -/
def program (fuel : Nat → Nat) (H : K → Nat) (lim : Nat) (d : V) (n : Nat) (ops : List (Op K V)) :
    S K V Unit := do
  destroyAll (← exec fuel H lim d (List.replicate n LMap.nil) ops)

end

end Rpp.MapMem
