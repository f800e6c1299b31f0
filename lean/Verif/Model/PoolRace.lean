import Verif.Model.Sched

/-!
# Model: what the threads of an `Async::Pool` touch, and under which locks

`rpp/pool.h`. An access to a field takes two steps, its beginning and its end, so that accesses of different threads can
overlap. What is stored in the fields is left out: a call is given with the path it takes, and all paths are possible, so that all
executions of the code are among the schedules. The atomic numbers `shutdown` and `sequence` (`rpp/pool.h:190`) are no fields
here; the condition variables and the end of the destructor, after it has joined all threads (`rpp/pool.h:78, 84-94`), are left out.
-/

namespace Rpp.PoolRace

/-- The mutex of a `Thread_State` (`rpp/pool.h:193`), and `events_mut` (`:205`). -/
inductive Lock where
  | queue (i : Nat)
  | events
deriving DecidableEq

/-- The data shared by the threads (`rpp/pool.h:195, 200-202`): `thread_states[i].jobs`, `pending_events`, `pending_event_jobs`,
`events_to_enqueue`. -/
inductive Field where
  | jobs (i : Nat)
  | pending
  | pendingJobs
  | toEnqueue
deriving DecidableEq

/-- One operation. `peek i` reads `thread_states[i].jobs` in `enqueue` (`rpp/pool.h:119`). -/
inductive Op where
  | acq (l : Lock)
  | rel (l : Lock)
  | rd (f : Field)
  | wr (f : Field)
  | peek (i : Nat)
deriving DecidableEq

/-- Calls, with the path taken: `n` is the number of workers. -/
inductive Call where
  /-- `enqueue`: looks at the queues up to the one it uses; `full` if none was empty. -/
  | enqueue (i : Nat) (full : Bool)
  /-- `enqueue_event`. -/
  | enqueueEvent
  /-- `do_work` of worker `i`, up to the end of the block or up to falling asleep. -/
  | take (i : Nat)
  | sleep (i : Nat)
  /-- A turn of the loop of `do_events`, with `idx == 0` or not; in the second case the job goes to queue `i`. The last turn
  returns. -/
  | collect
  | fire (i : Nat) (full : Bool)
  | quit
  /-- The destructor. -/
  | shut
deriving DecidableEq

/-- The looks of `enqueue` at the queues (`rpp/pool.h:116-119`). -/
def looks (n i : Nat) (full : Bool) : List Op := ((List.range n).take (if full then n else i + 1)).map .peek

/-- `enqueue` (`rpp/pool.h:115-134`). -/
def enqueue (n i : Nat) (full : Bool) : List Op := looks n i full ++ [.acq (.queue i), .wr (.jobs i), .rel (.queue i)]

/-- The operations of a call. -/
def ops (n : Nat) : Call → List Op
  | .enqueue i full => enqueue n i full
  -- `rpp/pool.h:136-140`
  | .enqueueEvent => [.acq .events, .wr .toEnqueue, .rd .pending, .rel .events]
  -- `rpp/pool.h:147-155`
  | .take i => [.acq (.queue i), .rd (.jobs i), .wr (.jobs i), .rel (.queue i)]
  -- `rpp/pool.h:147-151`: `wait` gives the lock back and takes it again when the worker is woken, a call of its own here
  | .sleep i => [.acq (.queue i), .rd (.jobs i), .rel (.queue i)]
  -- `rpp/pool.h:163-165, 168-174`
  | .collect => [.rd .pending, .acq .events, .rd .toEnqueue, .wr .pending, .wr .pendingJobs, .wr .toEnqueue, .rel .events]
  -- `rpp/pool.h:163, 164, 176-185`
  | .fire i full => [.rd .pending, .acq .events, .wr .pendingJobs, .wr .pending] ++ enqueue n i full ++ [.rel .events]
  -- `rpp/pool.h:163-166`
  | .quit => [.rd .pending, .acq .events, .rel .events]
  -- `rpp/pool.h:72-82`
  | .shut => (List.range n).flatMap (fun i => [.acq (.queue i), .rel (.queue i)]) ++ [.acq .events, .rd .pending, .rel .events]

/-- A thread: what it has yet to do, and whether it is in the middle of the first of it. -/
structure Thr where
  todo : List Op := []
  busy : Bool := false
deriving DecidableEq

/-- All threads, and who holds each lock. -/
structure St where
  thr : Nat → Thr := fun _ => {}
  lock : Lock → Option Nat := fun _ => none

/-- Change one thread. -/
def St.set (s : St) (t : Nat) (x : Thr) : St := { s with thr := fun i => if i = t then x else s.thr i }

/-- Change one lock. -/
def St.setLock (s : St) (l : Lock) (o : Option Nat) : St := { s with lock := fun k => if k = l then o else s.lock k }

/-- The next step of thread `t`. -/
def go (s : St) (t : Nat) : Res St :=
  match (s.thr t).todo with
  | [] => .ok s
  -- `pthread_mutex_lock`
  | .acq l :: r =>
    match s.lock l with
    | none => .ok ((s.setLock l (some t)).set t ⟨r, false⟩)
    | some _ => .ok s
  -- `pthread_mutex_unlock` by another thread is undefined
  | .rel l :: r => if s.lock l = some t then .ok ((s.setLock l none).set t ⟨r, false⟩) else .error .ub
  | o :: r => if (s.thr t).busy then .ok (s.set t ⟨r, false⟩) else .ok (s.set t ⟨o :: r, true⟩)

/-- A thread that is in no call begins one, or a thread takes a step. -/
inductive Ev where
  | call (t : Nat) (c : Call)
  | go (t : Nat)
deriving DecidableEq

/-- Thread 0 is the event thread and thread `i + 1` the worker `i` (`rpp/pool.h:61-69`); a worker that runs a job may make any of
the calls that others make. -/
def may (n m : Nat) (t : Nat) : Call → Bool
  | .enqueue i _ => decide (0 < t ∧ t < m ∧ i < n)
  | .enqueueEvent => decide (0 < t ∧ t < m)
  | .take i | .sleep i => decide (t = i + 1 ∧ i < n ∧ t < m)
  | .collect | .quit => decide (t = 0 ∧ t < m)
  | .fire i _ => decide (t = 0 ∧ i < n ∧ t < m)
  | .shut => decide (n < t ∧ t < m)

/-- One event: `n` workers, `m` threads in all. -/
def step (n m : Nat) (s : St) : Ev → Res St
  | .call t c => if (s.thr t).todo = [] ∧ may n m t c = true then .ok (s.set t ⟨ops n c, false⟩) else .ok s
  | .go t => go s t

end Rpp.PoolRace
