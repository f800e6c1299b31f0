import Verif.Model.Sched

/-!
# Model: the mutexes of the library

Which mutexes each call takes, in order: `rpp/impl/profile.cpp`, `rpp/profile.h:82-104`, `rpp/impl/log.cpp:126-193`, `rpp/alloc1.h:30-54`,
`rpp/range_allocator.h`. The mutexes of `Async::Pool` have a model of their own (`Verif.Model.PoolRace`). What the calls compute is left
out; a call is given with the path it takes, and all paths are possible. Left out: the end of the program by `die`, and
`Profile::finalize`, which may only be called when all other threads have ended (`rpp/impl/profile.cpp:207`).
-/

namespace Rpp.Locks

/-- `finalizers_lock`, `threads_lock` and `allocs_lock` (`rpp/profile.h:160-162`), the `frames_lock` of a thread (`:156`), the mutex of a
`Range_Allocator` (`rpp/range_allocator.h:220`), of the pool of objects of a size (`rpp/alloc1.h:71`), of the log
(`rpp/impl/log.cpp:27`), and the mutexes of the program itself. -/
inductive Lock where
  | finalizers
  | range (r : Nat)
  | pool (n : Nat)
  | threads
  | frames (t : Nat)
  | allocs
  | log
  | own (k : Nat)
deriving DecidableEq

/-- Locking and unlocking a mutex. -/
inductive Op where
  | acq (l : Lock)
  | rel (l : Lock)
deriving DecidableEq

/-- What a callback of `iterate_timings`, or the program with a mutex of its own held, does. -/
inductive Act where
  | own (k : Nat)
  | log
  | record (warns : Bool)
deriving DecidableEq

/-- The callbacks of the program: the mutexes that those of the log take one after the other, in thread `t`, and what that of
`iterate_timings` does for one thread. -/
structure Env where
  onLog : Nat → List Lock := fun _ => []
  onNode : List Act := []

/-- A `Lock` for a block (`rpp/thread0.h:54-73`). -/
def block (l : Lock) (b : List Op) : List Op := .acq l :: (b ++ [.rel l])

/-- `Log::output` (`rpp/impl/log.cpp:150-166`) and so `info` and `warn`: the callbacks run with the mutex held. -/
def logOps (e : Env) (t : Nat) : List Op := block .log ((e.onLog t).flatMap fun l => block l [])

/-- `Profile::alloc` (`rpp/impl/profile.cpp:160-199`), for an allocation or a free; `warns` if the address was or was not known. -/
def recordOps (e : Env) (t : Nat) (warns : Bool) : List Op :=
  block .allocs (if warns then logOps e t else []) ++ block (.frames t) []

/-- One action of a callback. -/
def actOps (e : Env) (t : Nat) : Act → List Op
  | .own k => block (.own k) []
  | .log => logOps e t
  | .record w => recordOps e t w

/-- Calls. -/
inductive Call where
  /-- `Mallocator::alloc` and `free` (`rpp/alloc1.h:91-108`). -/
  | record (warns : Bool)
  /-- `info`, `warn`. -/
  | log
  /-- `Log::subscribe`, `unsubscribe` (`rpp/impl/log.cpp:179-193`). -/
  | subscribe
  /-- `Mpool::make` and `destroy` (`rpp/alloc1.h:30-54`) for objects of size `n`; memory is allocated if the free list has none. -/
  | object (n : Nat) (fetch : Option Bool)
  /-- `Range_Allocator::allocate`, `free` and its destructor (`rpp/range_allocator.h:21-24, 73-186`): the blocks come from a `Free_List`,
  which allocates and frees. -/
  | range (r : Nat) (fetches : List Bool)
  /-- `begin_frame`, `end_frame`, `enter`, `exit` (`rpp/impl/profile.cpp:62-116, 143-148`); the first registers the thread (`:18-27`). -/
  | scope (first : Bool)
  /-- `iterate_timings` (`rpp/profile.h:82-104`) with the threads `ts` registered. -/
  | iterate (ts : List Nat)
  /-- `Profile::finalizer` (`rpp/impl/profile.cpp:201-204`). -/
  | finalizer
  /-- The program takes a mutex of its own, and allocates or writes to the log while it has it, or not. -/
  | own (k : Nat) (body : List Act)
deriving DecidableEq

/-- The operations of a call of thread `t`. -/
def ops (e : Env) (t : Nat) : Call → List Op
  | .record w => recordOps e t w
  | .log => logOps e t
  | .subscribe => block .log []
  | .object n f => block (.pool n) (match f with | none => [] | some w => recordOps e t w)
  | .range r fs => block (.range r) (fs.flatMap (recordOps e t))
  | .scope first => (if first then block .threads [] else []) ++ block (.frames t) []
  | .iterate ts => block .threads (ts.flatMap fun u => block (.frames u) (e.onNode.flatMap (actOps e t)))
  | .finalizer => block .finalizers []
  | .own k b => block (.own k) (b.flatMap (actOps e t))

/-- What each thread has yet to do, and who holds each mutex. -/
structure St where
  todo : Nat → List Op := fun _ => []
  lock : Lock → Option Nat := fun _ => none

/-- Change one thread. -/
def St.set (s : St) (t : Nat) (x : List Op) : St := { s with todo := fun i => if i = t then x else s.todo i }

/-- Change one mutex. -/
def St.setLock (s : St) (l : Lock) (o : Option Nat) : St := { s with lock := fun k => if k = l then o else s.lock k }

/-- The next step of thread `t`. -/
def go (s : St) (t : Nat) : Res St :=
  match s.todo t with
  | [] => .ok s
  -- `pthread_mutex_lock`: waits, also for itself (`rpp/pos/thread_pos.cpp:197-216`, a normal mutex)
  | .acq l :: r =>
    match s.lock l with
    | none => .ok ((s.setLock l (some t)).set t r)
    | some _ => .ok s
  -- `pthread_mutex_unlock` by another thread is undefined
  | .rel l :: r => if s.lock l = some t then .ok ((s.setLock l none).set t r) else .error .ub

/-- A thread that is in no call begins one, or a thread takes a step. -/
inductive Ev where
  | call (t : Nat) (c : Call)
  | go (t : Nat)
deriving DecidableEq

/-- One event, of `m` threads. -/
def step (e : Env) (m : Nat) (s : St) : Ev → Res St
  | .call t c => if s.todo t = [] ∧ t < m then .ok (s.set t (ops e t c)) else .ok s
  | .go t => go s t

end Rpp.Locks
