import Verif.Model.Sched

/-!
# Allocation statistics: `Mallocator` (`rpp/alloc1.h:91-108`), `sys_alloc`, `sys_free` (`rpp/impl/alloc.cpp:101-120`) and
`Profile::alloc`, `Profile::finalize` (`rpp/impl/profile.cpp:160-199, 206-255`)

Any number of threads allocate and free. A block goes through the steps of `alloc` (the system's `malloc`,
`g_net_allocs.incr()`, `Profile::alloc`), is then in use, and goes through the steps of `free` (`Profile::alloc`,
`g_net_allocs.decr()`, the system's `free`); between two steps any other thread may run. `Profile::alloc` runs under
`allocs_lock` and is one step. The map `current_set` is a finite map from addresses to sizes (`Map` has theorems of its
own), and so is `allocs` from names. Recording the allocation in the current frame (lines 192-197) is left out. `RPP_RELEASE_BUILD`
is not defined.
-/

namespace Rpp
namespace Stats
variable {N : Type}

/-- Where a block is: `malloc` has returned; counted in `g_net_allocs`; in use (recorded by `Profile::alloc` if the allocator
logs); removed from the profile again; removed from the count. -/
inductive Phase where
  | fresh | counted | ready | removed | uncounted
  deriving DecidableEq, Repr

/-- A block of the system heap: its allocator has the name `name` and the template argument `log`. -/
structure Blk (N : Type) where
  addr : Nat
  size : Nat
  name : N
  log : Bool
  phase : Phase
  deriving DecidableEq, Repr

/-- `Alloc_Profile` (`rpp/profile.h:113-122`). -/
structure Prof where
  allocates : Int := 0
  frees : Int := 0
  allocSize : Int := 0
  freeSize : Int := 0
  high : Int := 0
  cur : Int := 0
  set : Nat → Option Nat := fun _ => none

/-- The system heap, the profiles by name, `g_net_allocs`, and the number of warnings. -/
structure St (N : Type) where
  blks : List (Blk N) := []
  prof : N → Prof := fun _ => {}
  net : Int := 0
  warns : Nat := 0

/-- Conversion to `i64`. -/
def toI64 (x : Int) : Int := Int.bmod x (2 ^ 64)

/-- Addition of two `i64`, undefined if it overflows. -/
def sadd (a b : Int) : Res Int :=
  if -2 ^ 63 ≤ a + b ∧ a + b < 2 ^ 63 then .ok (a + b) else .error .ub

/-- `Profile::alloc` for an allocation (`rpp/impl/profile.cpp:166-176`): the new profile and whether it warns. Adding the `u64`
`a.size` to an `i64` goes through `u64`. -/
def noteAlloc (p : Prof) (addr size : Nat) : Res (Prof × Bool) := do
  let allocates ← sadd p.allocates 1
  let cur := toI64 (p.cur + size)
  .ok ({ p with
    set := fun a => if a = addr then some size else p.set a,
    allocSize := toI64 (p.allocSize + size),
    allocates := allocates,
    cur := cur,
    high := max p.high cur }, (p.set addr).isSome)

/-- `Profile::alloc` for a free (`rpp/impl/profile.cpp:178-190`). -/
def noteFree (p : Prof) (addr : Nat) : Res (Prof × Bool) :=
  match p.set addr with
  | none => .ok (p, true)
  | some sz => do
    let size := toI64 sz
    let freeSize ← sadd p.freeSize size
    let frees ← sadd p.frees 1
    let cur ← sadd p.cur (-size)
    .ok ({ p with
      set := fun a => if a = addr then none else p.set a,
      freeSize := freeSize,
      frees := frees,
      cur := cur }, false)

/-- The steps of the threads: `malloc` returns the block at `addr`; the next step of the thread that is allocating or freeing
the block at position `i`; some thread starts to free the block at position `i`. -/
inductive Ev (N : Type) where
  | malloc (addr size : Nat) (name : N) (log : Bool)
  | next (i : Nat)
  | free (i : Nat)
  deriving DecidableEq, Repr

/-- Put the profile `p` at the name `n`. -/
def setProf [DecidableEq N] (f : N → Prof) (n : N) (p : Prof) : N → Prof := fun m => if m = n then p else f m

/-- A block is recorded or removed, with the profile of its name changed by `r`. -/
def note [DecidableEq N] (s : St N) (i : Nat) (b : Blk N) (ph : Phase) (r : Res (Prof × Bool)) : Res (St N) :=
  match r with
  | .ok (p, w) => .ok { s with
      blks := s.blks.set i { b with phase := ph },
      prof := setProf s.prof b.name p,
      warns := s.warns + (if w then 1 else 0) }
  | .error x => .error x

/-- One step. `malloc` gives an address that no block has, and a size of zero never reaches it (`rpp/alloc1.h:93`). A block is freed
only while it is in use, and by the allocator it came from. -/
def step [DecidableEq N] (s : St N) : Ev N → Res (St N)
  | .malloc addr size name log =>
    if addr ≠ 0 ∧ size ≠ 0 ∧ size < 2 ^ 64 ∧ ∀ b ∈ s.blks, b.addr ≠ addr then
      .ok { s with blks := s.blks ++ [⟨addr, size, name, log, .fresh⟩] }
    else .ok s
  | .next i => match s.blks[i]? with
    | none => .ok s
    | some b => match b.phase with
      | .fresh => .ok { s with blks := s.blks.set i { b with phase := .counted }, net := s.net + 1 }
      | .counted =>
        if b.log then note s i b .ready (noteAlloc (s.prof b.name) b.addr b.size)
        else .ok { s with blks := s.blks.set i { b with phase := .ready } }
      | .ready => .ok s
      | .removed => .ok { s with blks := s.blks.set i { b with phase := .uncounted }, net := s.net - 1 }
      | .uncounted => .ok { s with blks := s.blks.eraseIdx i }
  | .free i => match s.blks[i]? with
    | none => .ok s
    | some b =>
      if b.phase = .ready then
        (if b.log then note s i b .removed (noteFree (s.prof b.name) b.addr)
        else .ok { s with blks := s.blks.set i { b with phase := .removed } })
      else .ok s

/-- `finalize` (`rpp/impl/profile.cpp:216-240`): what it says about a name ("Unbalanced size"), and about the
number of allocations (`none` for "No memory leaked."). -/
def finalize (s : St N) : (N → Option Int) × Option Int :=
  (fun n => if (s.prof n).cur ≠ 0 then some (s.prof n).cur else none, if s.net ≠ 0 then some s.net else none)

end Stats
end Rpp
