import Verif.Model.Mem
import Verif.Model.Word
import Verif.Model.Math

/-!
# Model of `rpp::Range_Allocator` (`rpp/range_allocator.h`)

Blocks are records in a memory indexed by addresses (`Nat`), linked by pointers (`Option Nat`, `none` is
`null`). Reading or writing a block that does not exist is undefined behaviour. `Buckets` and `Bias` are
parameters. The mutex is not modelled: operations are atomic, as they run under the lock. `blocks` is
modelled as in `Free_List` (`rpp/alloc0.h:118-184`): a stack of released addresses that are reused first,
then new addresses from the base allocator, which is taken not to fail. Sizes are 64-bit words and wrap.
-/

namespace Rpp

/-- `Range_Allocator::Block` (`rpp/range_allocator.h:46-70`). -/
structure RBlock where
  offset : Nat
  size : Nat
  start : Nat
  next : Option Nat
  prev : Option Nat
  nextF : Option Nat
  prevF : Option Nat
  free : Bool
  deriving DecidableEq, Repr, Inhabited

/-- `Block::length` (`rpp/range_allocator.h:48-50`). -/
def RBlock.length (b : RBlock) : Nat := wsub b.size (wsub b.offset b.start)

/-- `Stats` (`rpp/range_allocator.h:188-200`). -/
structure RStats where
  free_size : Nat
  allocated_size : Nat
  free_blocks : Nat
  allocated_blocks : Nat
  bucket_sizes : Nat → Nat
  high_water : Nat
  total_frees : Nat
  total_allocs : Nat
  total_free_size : Nat
  total_alloc_size : Nat
  total_capacity : Nat

/-- `Range_Allocator` (`rpp/range_allocator.h:219-223`); `mem` is the memory that holds the blocks,
`pool` and `fresh` the state of `blocks`: released addresses and the next new one. -/
structure RA where
  mem : Nat → Option RBlock
  heads : Nat → Option Nat
  st : RStats
  pool : List Nat
  fresh : Nat

/-- Function update. -/
def upd {β : Type _} (f : Nat → β) (i : Nat) (b : β) : Nat → β := fun j => if j = i then b else f j

namespace RA

/-- Zero-initialised members. -/
def init : RA :=
  ⟨fun _ => none, fun _ => none, ⟨0, 0, 0, 0, fun _ => 0, 0, 0, 0, 0, 0, 0⟩, [], 0⟩

/-- Reading `*p`. -/
def rd (s : RA) (i : Nat) : Res RBlock :=
  match s.mem i with
  | some b => .ok b
  | none => .error .ub

/-- Changing the members of `*p`. -/
def wr (s : RA) (i : Nat) (f : RBlock → RBlock) : Res RA :=
  match s.mem i with
  | some b => .ok { s with mem := upd s.mem i (some (f b)) }
  | none => .error .ub

/-- `if(p) p->… = …`. -/
def wrOpt (s : RA) (i : Option Nat) (f : RBlock → RBlock) : Res RA :=
  match i with
  | some i => s.wr i f
  | none => .ok s

/-- `blocks.make(..)` (`rpp/alloc0.h:139-143,162-169`). -/
def make (s : RA) (b : RBlock) : RA × Nat :=
  match s.pool with
  | a :: pool => ({ s with mem := upd s.mem a (some b), pool := pool }, a)
  | [] => ({ s with mem := upd s.mem s.fresh (some b), fresh := s.fresh + 1 }, s.fresh)

/-- `blocks.destroy(..)` (`rpp/alloc0.h:145-150,172-175`). -/
def destroy (s : RA) (i : Nat) : Res RA :=
  match s.mem i with
  | some _ => .ok { s with mem := upd s.mem i none, pool := i :: s.pool }
  | none => .error .ub

/-- `size_to_idx` (`rpp/range_allocator.h:225-229`); the result is a `u8`. -/
def size_to_idx (B bias size : Nat) : Nat :=
  let idx := Math.log2 64 size
  let idx := if idx ≥ bias then idx - bias else 0
  min idx (B - 1) % 2 ^ 8

/-- An access to `free_blocks[idx]` (`rpp/range_allocator.h:222`): `Array::operator[]` asserts that the index is
in range (`rpp/array.h:68-75`). The contents are kept as a function on all numbers. -/
def bucket (B idx : Nat) : Res Unit := if idx < B then .ok () else .error .die

/-- `insert_free_block` (`rpp/range_allocator.h:231-239`). -/
def insert_free_block (B bias : Nat) (s : RA) (b : Nat) : Res RA := do
  let blk ← s.rd b
  let idx := size_to_idx B bias blk.size
  bucket B idx
  let s ← s.wr b (fun x => { x with free := true, prevF := none, nextF := s.heads idx })
  let s ← s.wrOpt (s.heads idx) (fun x => { x with prevF := some b })
  return { s with
    heads := upd s.heads idx (some b),
    st := { s.st with bucket_sizes := upd s.st.bucket_sizes idx (wadd (s.st.bucket_sizes idx) 1) } }

/-- `remove_free_block` (`rpp/range_allocator.h:241-250`). -/
def remove_free_block (B bias : Nat) (s : RA) (b : Nat) : Res RA := do
  let s ← s.wr b (fun x => { x with free := false })
  let blk ← s.rd b
  let idx := size_to_idx B bias blk.size
  bucket B idx
  let s ← s.wrOpt blk.prevF (fun x => { x with nextF := blk.nextF })
  let s ← s.wrOpt blk.nextF (fun x => { x with prevF := blk.prevF })
  let s := if s.heads idx = some b then { s with heads := upd s.heads idx blk.nextF } else s
  let s ← s.wr b (fun x => { x with nextF := none, prevF := none })
  return { s with
    st := { s.st with bucket_sizes := upd s.st.bucket_sizes idx (wsub (s.st.bucket_sizes idx) 1) } }

/-- `Range_Allocator(u64 heap_size)` (`rpp/range_allocator.h:13-20`). -/
def make_heap (B bias heap_size : Nat) : Res RA := do
  if heap_size = 0 then .error .die
  let (s, primary) := init.make ⟨0, heap_size, 0, none, none, none, none, false⟩
  let s ← s.insert_free_block B bias primary
  return { s with
    st := { s.st with free_blocks := 1, free_size := heap_size, total_capacity := heap_size } }

/-- The loop of lines 81-83: the first bucket from `idx` on that is not empty. `idx` is a `u8`: `++` wraps. -/
def firstBucket (B : Nat) (heads : Nat → Option Nat) : Nat → Nat → Res Nat
  | 0, _ => .error .hang
  | fuel + 1, idx =>
    if idx < B ∧ (heads idx).isNone then firstBucket B heads fuel ((idx + 1) % 2 ^ 8) else .ok idx

/-- The loop of lines 97-99; `idx` is a `u8`. -/
def advance (B : Nat) (heads : Nat → Option Nat) : Nat → Option Nat → Nat → Res (Option Nat × Nat)
  | 0, _, _ => .error .hang
  | _ + 1, some b, idx => .ok (some b, idx)
  | fuel + 1, none, idx =>
    if idx < B - 1 then do
      bucket B ((idx + 1) % 2 ^ 8)
      advance B heads fuel (heads ((idx + 1) % 2 ^ 8)) ((idx + 1) % 2 ^ 8)
    else .ok (none, idx)

/-- The loop of lines 91-100: the block and the padding. -/
def search (B : Nat) (s : RA) (size alignment : Nat) : Nat → Option Nat → Nat → Res (Option (Nat × Nat))
  | 0, _, _ => .error .hang
  | _ + 1, none, _ => .ok none
  | fuel + 1, some b, idx => do
    let blk ← s.rd b
    let padding := wsub (← Math.align 64 blk.start alignment) blk.start
    if blk.size ≥ wadd size padding then return some (b, padding)
    let (b', idx) ← advance B s.heads 257 blk.nextF idx
    search B s size alignment fuel b' idx

/-- Lines 107-136: take `size + padding` from the block. -/
def take (B bias : Nat) (s : RA) (b size padding : Nat) : Res RA := do
  let s ← s.remove_free_block B bias b
  let s ← s.wr b (fun x => { x with offset := wadd x.start padding })
  let blk ← s.rd b
  let need := wadd size padding
  let s ← (if blk.size > need then do
      let (s, n) := s.make ⟨0, wsub (wsub blk.size size) padding, wadd (wadd blk.start size) padding,
        blk.next, some b, none, none, false⟩
      let s ← s.wr b (fun x => { x with size := need })
      let s ← s.wrOpt blk.next (fun x => { x with prev := some n })
      let s ← s.wr b (fun x => { x with next := some n })
      let s ← s.insert_free_block B bias n
      pure { s with st := { s.st with free_blocks := wadd s.st.free_blocks 1 } }
    else pure s)
  let allocated := wadd s.st.allocated_size need
  return { s with st := { s.st with
    free_size := wsub s.st.free_size need
    allocated_size := allocated
    high_water := max s.st.high_water allocated
    allocated_blocks := wadd s.st.allocated_blocks 1
    free_blocks := wsub s.st.free_blocks 1
    total_allocs := wadd s.st.total_allocs 1
    total_alloc_size := wadd s.st.total_alloc_size need } }

/-- `allocate` (`rpp/range_allocator.h:73-137`). The search visits each block once, so `fresh + 1`
iterations are enough, and a `u8` has 256 values; more would be the outcome `hang`. -/
def allocate (B bias : Nat) (s : RA) (size alignment : Nat) : Res (RA × Option Nat) := do
  if size = 0 ∨ alignment = 0 then .error .die
  let idx := size_to_idx B bias size
  let idx ← firstBucket B s.heads 257 idx
  if idx = B then return (s, none)
  bucket B idx
  match ← search B s size alignment (s.fresh + 1) (s.heads idx) idx with
  | none => return (s, none)
  | some (b, padding) =>
    let s ← s.take B bias b size padding
    return (s, some b)

/-- `free` (`rpp/range_allocator.h:139-186`). -/
def free (B bias : Nat) (s : RA) (allocation : Nat) : Res RA := do
  let blk ← s.rd allocation
  let next := blk.next
  let free_size := blk.size
  -- merge with prev
  let (s, block) ← (match blk.prev with
    | some p => do
      let pb ← s.rd p
      (if pb.free then do
        let s ← s.remove_free_block B bias p
        let s ← s.wr p (fun x => { x with size := wadd x.size blk.size })
        let s ← s.wr p (fun x => { x with next := next })
        let s ← s.wrOpt next (fun x => { x with prev := some p })
        let s ← s.destroy allocation
        pure ({ s with st := { s.st with free_blocks := wsub s.st.free_blocks 1 } }, p)
      else pure (s, allocation))
    | none => pure (s, allocation))
  -- merge with next
  let s ← (match next with
    | some n => do
      let nb ← s.rd n
      (if nb.free then do
        let s ← s.remove_free_block B bias n
        let nb ← s.rd n
        let s ← s.wr block (fun x => { x with size := wadd x.size nb.size })
        let s ← s.wr block (fun x => { x with next := nb.next })
        let s ← s.wrOpt nb.next (fun x => { x with prev := some block })
        let s := { s with st := { s.st with free_blocks := wsub s.st.free_blocks 1 } }
        s.destroy n
      else pure s)
    | none => pure s)
  let s ← s.insert_free_block B bias block
  return { s with st := { s.st with
    free_size := wadd s.st.free_size free_size
    allocated_size := wsub s.st.allocated_size free_size
    allocated_blocks := wsub s.st.allocated_blocks 1
    free_blocks := wadd s.st.free_blocks 1
    total_frees := wadd s.st.total_frees 1
    total_free_size := wadd s.st.total_free_size free_size } }

/-- `Stats::assert_clear` (`rpp/range_allocator.h:202-212`). -/
def assert_clear (B : Nat) (t : RStats) : Res Unit :=
  let sum := (List.range B).foldl (fun a i => wadd a (t.bucket_sizes i)) 0
  if t.total_allocs = t.total_frees ∧ t.total_alloc_size = t.total_free_size ∧
      (t.free_blocks = 1 ∨ (t.free_blocks = 0 ∧ t.total_capacity = 0)) ∧
      t.free_size = t.total_capacity ∧ t.allocated_blocks = 0 ∧ t.allocated_size = 0 ∧
      sum = t.free_blocks
  then .ok () else .error .die

/-- `reset` on one bucket (`rpp/range_allocator.h:254-260`). -/
def resetBucket (s : RA) : Nat → Option Nat → Res RA
  | 0, _ => .error .hang
  | _ + 1, none => .ok s
  | fuel + 1, some b => do
    let blk ← s.rd b
    let s ← s.destroy b
    s.resetBucket fuel blk.nextF

/-- `reset` without the final `blocks.clear()` (`rpp/range_allocator.h:252-261`); `n` buckets are left. -/
def reset (s : RA) : Nat → Nat → Res RA
  | 0, _ => .ok s
  | n + 1, i => do
    let s ← s.resetBucket (s.fresh + 1) (s.heads i)
    reset { s with heads := upd s.heads i none } n (i + 1)

end RA

end Rpp
