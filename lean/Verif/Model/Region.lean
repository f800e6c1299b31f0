import Verif.Model.Mem
import Verif.Model.Word

/-!
# Model of the region allocator (`rpp/impl/alloc.cpp:11-99`) and of `Free_List` (`rpp/alloc0.h:118-184`)

The region allocator has one state per thread; the model is that of one thread. A chunk is identified by
its address; memory handed out is a chunk and an offset in its data. The contents of memory are not
modelled. `lim` is the size of the largest chunk the system allocator can provide; a larger one makes
`sys_alloc` stop the program (`rpp/impl/alloc.cpp:101-103`).
-/

namespace Rpp

/-- `Chunk` (`rpp/impl/alloc.cpp:13-17`); `up` is the rest of the list of chunks. -/
structure Chunk where
  id : Nat
  size : Nat
  used : Nat
  deriving DecidableEq, Repr

/-- The thread's state (`rpp/impl/alloc.cpp:29-33`). `chunks` is never empty; its last element is the
first chunk, with address 0. `fresh` is the address of the next chunk, `freed` lists the addresses given
back to the system. -/
structure Reg where
  current : Nat
  offsets : Nat → Nat
  brands : Nat → Nat
  chunks : List Chunk
  fresh : Nat
  freed : List Nat

namespace Reg

/-- `sizeof(Chunk)`. -/
def CHUNK : Nat := 24
/-- `FIRST_CHUNK_SIZE` (`rpp/impl/alloc.cpp:20`). -/
def FIRST : Nat := 1024
/-- `MAX_REGION_DEPTH` (`rpp/impl/alloc.cpp:21`). -/
def DEPTH : Nat := 128

/-- Initial state (`rpp/impl/alloc.cpp:23-33`). -/
def init : Reg := ⟨0, fun _ => 0, fun _ => 0, [⟨0, FIRST - CHUNK, 0⟩], 1, []⟩

/-- Assignment to an element of `region_offsets` or `region_brands`. -/
def set (f : Nat → Nat) (i v : Nat) : Nat → Nat := fun j => if j = i then v else f j

/-- `new_chunk` (`rpp/impl/alloc.cpp:35-42`). -/
def new_chunk (lim : Nat) (s : Reg) (request : Nat) : Res Reg :=
  match s.chunks with
  | [] => .error .ub
  | c :: _ =>
    let size := max (wadd request CHUNK) (wmul 2 (wadd c.size CHUNK))
    if size > lim then .error .oom
    else .ok { s with chunks := ⟨s.fresh, wsub size CHUNK, 0⟩ :: s.chunks, fresh := s.fresh + 1 }

/-- `assert_brand` (`rpp/impl/alloc.cpp:44-48`). -/
def assert_brand (s : Reg) (brand : Nat) : Res Unit :=
  if s.brands s.current ≠ brand then .error .die else .ok ()

/-- `alloc` (`rpp/impl/alloc.cpp:50-59`): the chunk and the offset of the result in its data. -/
def alloc (lim : Nat) (s : Reg) (brand size : Nat) : Res (Reg × Nat × Nat) := do
  s.assert_brand brand
  match s.chunks with
  | [] => .error .ub
  | c :: _ =>
    let s ← (if wsub c.size c.used < size then s.new_chunk lim size else pure s)
    match s.chunks with
    | [] => .error .ub
    | c :: cs =>
      return ({ s with
        chunks := { c with used := wadd c.used size } :: cs
        offsets := set s.offsets s.current (wadd (s.offsets s.current) size) }, c.id, c.used)

/-- The address `alloc` returns (`rpp/impl/alloc.cpp:55`) for offset `off` in the chunk at `base id`. -/
def address (base : Nat → Nat) (id off : Nat) : Nat := base id + CHUNK + off

/-- `free` (`rpp/impl/alloc.cpp:61-63`). -/
def free (s : Reg) (brand : Nat) : Res Unit := s.assert_brand brand

/-- `begin` (`rpp/impl/alloc.cpp:65-70`). `die` says that a check fails; what reporting it comes to is in
`Verif.Model.Report`. -/
def begin (s : Reg) (brand : Nat) : Res Reg :=
  if s.current + 1 < DEPTH then
    .ok { s with
      current := s.current + 1
      offsets := set s.offsets (s.current + 1) (s.offsets s.current)
      brands := set s.brands (s.current + 1) brand }
  else .error .die

/-- The loop of lines 79-84 and lines 85-90 after it, on the list of chunks: the remaining chunks and the
addresses freed. Freeing the first chunk, which was not obtained from the system, is undefined
behaviour. -/
def popChunks : List Chunk → Nat → List Nat → Res (List Chunk × List Nat)
  | [], _, _ => .error .ub
  | c :: cs, free_size, freed =>
    if free_size > c.used then
      match cs with
      | [] => .error .ub
      | _ :: _ => popChunks cs (wsub free_size c.used) (c.id :: freed)
    else
      let c' := { c with used := wsub c.used free_size }
      match cs with
      | [] => .ok ([c'], freed)
      | _ :: _ => if c'.used = 0 then .ok (cs, c.id :: freed) else .ok (c' :: cs, freed)

/-- `end` (`rpp/impl/alloc.cpp:72-91`). -/
def end' (s : Reg) (brand : Nat) : Res Reg := do
  if s.current = 0 then .error .die
  s.assert_brand brand
  let end_offset := s.offsets s.current
  let start_offset := s.offsets (s.current - 1)
  let free_size := wsub end_offset start_offset
  let (chunks, freed) ← popChunks s.chunks free_size s.freed
  return { s with current := s.current - 1, chunks := chunks, freed := freed }

/-- `depth` (`rpp/impl/alloc.cpp:93-95`). -/
def depth (s : Reg) : Nat := s.current

/-- `size` (`rpp/impl/alloc.cpp:97-99`). -/
def size (s : Reg) : Nat := s.offsets s.current

end Reg

/-! ### `Free_List` -/

/-- What is at an address: an object, or the link of a free node (`union Free_Node`,
`rpp/alloc0.h:177-181`). -/
inductive FCell (α : Type _) where
  | obj (v : α)
  | node (next : Option Nat)
  deriving DecidableEq, Repr

/-- `Free_List` (`rpp/alloc0.h:118-184`) with the memory obtained from `Base`: an address holds a cell if
it has been obtained from `Base` and not given back. `returned` lists the addresses given back. -/
structure FList (α : Type _) where
  list : Option Nat
  mem : Nat → Option (FCell α)
  returned : List Nat

namespace FList
variable {α : Type _}

def empty : FList α := ⟨none, fun _ => none, []⟩

def set (f : Nat → Option (FCell α)) (i : Nat) (v : Option (FCell α)) : Nat → Option (FCell α) :=
  fun j => if j = i then v else f j

/-- `make` (`rpp/alloc0.h:141-143,161-169`). `base` is the address `Base::alloc` returns if it is called; it
may be any that is not in use. -/
def make (s : FList α) (base : Nat) (v : α) : Res (FList α × Nat) :=
  match s.list with
  | some a =>
    match s.mem a with
    | some (.node next) => .ok ({ s with list := next, mem := set s.mem a (some (.obj v)) }, a)
    | _ => .error .ub
  | none => .ok ({ s with mem := set s.mem base (some (.obj v)) }, base)

/-- `destroy` (`rpp/alloc0.h:145-150,171-175`). -/
def destroy (s : FList α) (a : Nat) : Res (FList α) :=
  match s.mem a with
  | some (.obj _) => .ok { s with list := some a, mem := set s.mem a (some (.node s.list)) }
  | _ => .error .ub

/-- `clear` (`rpp/alloc0.h:152-158`); more than `fuel` iterations are the outcome `hang`. -/
def clear (s : FList α) : Nat → Res (FList α)
  | 0 => .error .hang
  | fuel + 1 =>
    match s.list with
    | none => .ok s
    | some a =>
      match s.mem a with
      | some (.node next) =>
        clear { s with list := next, mem := set s.mem a none, returned := a :: s.returned } fuel
      | _ => .error .ub

end FList

end Rpp
