import Verif.Model.Range

/-!
# Destruction and moves of `rpp::Range_Allocator` (`rpp/range_allocator.h:21-44,252-263`)

An allocator is the state of `Verif.Model.Range` with its mutex, of which only matters whether it exists:
locking, unlocking or destroying a mutex that was destroyed is undefined (POSIX; glibc answers `EINVAL`,
on which `Mutex::lock` ends the program, `rpp/pos/thread_pos.cpp:211-216`).
-/

namespace Rpp

/-- `Range_Allocator` with its mutex; `freed` are the blocks given back to the base allocator. -/
structure RAOwner where
  mutex : Bool
  ra : RA
  freed : List Nat

namespace RAOwner

/-- `Thread::Lock lock(mutex)`. -/
def lock (o : RAOwner) : Res Unit := if o.mutex then .ok () else .error .ub

/-- `allocate` (`rpp/range_allocator.h:73-137`) with its lock. -/
def allocate (B bias : Nat) (o : RAOwner) (size align : Nat) : Res (RAOwner × Option Nat) := do
  if size = 0 ∨ align = 0 then .error .die
  o.lock
  let (ra, r) ← RA.allocate B bias o.ra size align
  return ({ o with ra := ra }, r)

/-- `free` (`rpp/range_allocator.h:139-186`) with its lock. -/
def free (B bias : Nat) (o : RAOwner) (b : Nat) : Res RAOwner := do
  o.lock
  let ra ← RA.free B bias o.ra b
  return { o with ra := ra }

/-- `blocks.clear()` (`rpp/alloc0.h:152-158`): every released block goes back to the base allocator. -/
def clear (o : RAOwner) : RAOwner :=
  { o with freed := o.ra.pool ++ o.freed, ra := { o.ra with pool := [] } }

/-- `~Range_Allocator` (`rpp/range_allocator.h:21-24`): `reset` under the lock, then the members are
destroyed, `blocks` (another `clear`, of nothing) and the mutex. -/
def dtor (B : Nat) (o : RAOwner) : Res RAOwner := do
  o.lock
  let ra ← RA.reset o.ra B 0
  return { clear { o with ra := ra } with mutex := false }

/-- `Range_Allocator()` (`rpp/range_allocator.h:12`). -/
def empty : RAOwner := ⟨true, RA.init, []⟩

/-- `dst = move(src)` (`rpp/range_allocator.h:32-44`) for two allocators: the destructor of `dst` runs, but
no constructor afterwards. The blocks live in one memory; those of `dst` that are in use are lost. Both
results are returned. -/
def moveAssign (B : Nat) (dst src : RAOwner) : Res (RAOwner × RAOwner) := do
  let dst ← dst.dtor B
  src.lock
  return ({ dst with ra := src.ra }, { src with ra := { RA.init with fresh := src.ra.fresh } })

/-- `Range_Allocator dst = move(src)` (`rpp/range_allocator.h:29-31`). -/
def moveCtor (B : Nat) (src : RAOwner) : Res (RAOwner × RAOwner) := moveAssign B empty src

/-- `a = move(a)`. -/
def moveSelf (B : Nat) (o : RAOwner) : Res RAOwner := do
  let o ← o.dtor B
  o.lock
  return o

end RAOwner
end Rpp
