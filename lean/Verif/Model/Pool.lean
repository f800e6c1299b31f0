import Verif.Model.Sched

/-!
# `Async::Pool`: queues, workers, shutdown (`rpp/pool.h:51-188`)

One queue with its mutex and condition variable per worker, any number of threads that enqueue jobs (this
includes a job that enqueues from inside a worker, and the event thread), and the destructor. A job is a
number. Which queue `enqueue` chooses (an unlocked look at each queue for an empty one, else the
fractional part of a multiple of the golden ratio) is left open: every choice of an existing queue
is possible. The unlocked `jobs.empty()` is a data race in the sense of the C++ standard; here it only
influences the choice. `Cond::wait` unlocks and sleeps in one step and may wake up for no reason.
-/

namespace Rpp
namespace Pool

/-- Who holds a mutex. -/
inductive Own where
  | worker
  | sub (t : Nat)
  | dtor
  deriving DecidableEq, Repr

/-- Where a worker is in `do_work` (`rpp/pool.h:142-159`): about to lock (also after waking up in
`cond.wait`); at the condition of the loop; behind the loop; asleep; running a job; returned. -/
inductive W where
  | lock | check | check2 | asleep
  | run (j : Nat)
  | exit
  deriving DecidableEq, Repr

/-- A `Thread_State` with its worker; `pushed` and `taken` record what was put in and taken out. -/
structure Q where
  held : Option Own
  jobs : List Nat
  w : W
  pushed : List Nat
  taken : List Nat
  deriving DecidableEq, Repr

/-- Where a submitting thread is in `enqueue` (`rpp/pool.h:115-134`). -/
inductive Sub where
  | idle
  | lock (i j : Nat)
  | push (i j : Nat)
  | signal (i : Nat)
  | unlock (i : Nat)
  deriving DecidableEq, Repr

/-- Where the destructor is (`rpp/pool.h:71-95`): not called; at the mutex of queue `i`; about to signal it;
about to unlock; joining the workers; finished. -/
inductive Dtor where
  | live
  | lock (i : Nat)
  | signal (i : Nat)
  | unlock (i : Nat)
  | join
  | gone
  deriving DecidableEq, Repr

/-- The pool and the threads around it; `submitted` are the jobs given to `enqueue`, `destroyed` the ones
destroyed by the destructor. -/
structure St where
  qs : List Q
  subs : List Sub
  dtor : Dtor
  submitted : List Nat
  destroyed : List Nat
  deriving DecidableEq, Repr

/-- `shutdown.load()`: it is set first thing in the destructor (`rpp/pool.h:72`). -/
def St.shutdown (s : St) : Prop := s.dtor ≠ .live

instance (s : St) : Decidable s.shutdown := inferInstanceAs (Decidable (_ ≠ _))

/-- What happens next: thread `t` calls `enqueue(j)`, which will choose queue `i`; it goes on; worker `i` goes
on; it wakes up for no reason; the destructor is called; it goes on. -/
inductive Ev where
  | submit (t j i : Nat)
  | sub (t : Nat)
  | work (i : Nat)
  | spurious (i : Nat)
  | shutdown
  | dtor
  deriving DecidableEq, Repr

/-- A pool of `n` workers and `m` other threads. -/
def St.init (n m : Nat) : St :=
  ⟨List.replicate n ⟨none, [], .lock, [], []⟩, List.replicate m .idle, .live, [], []⟩

/-- What `Cond::signal` does to the only thread that waits on the condition variable. -/
def wakeUp : W → W
  | .asleep => .lock
  | w => w

/-- The destructor's next mutex after `i` of `n`. -/
def nextDtor (n i : Nat) : Dtor := if i < n then .lock i else .join

/-- One step. -/
def step (s : St) : Ev → Res St
  | .submit t j i =>
    if s.subs[t]? = some .idle ∧ s.dtor ≠ .gone then
      -- `% thread_states.length()` (`rpp/pool.h:128`)
      if s.qs.length = 0 then .error .ub
      else if i < s.qs.length then
        .ok { s with subs := s.subs.set t (.lock i j), submitted := s.submitted ++ [j] }
      else .ok s
    else .ok s
  | .sub t => match s.subs[t]? with
    | some (.lock i j) => match s.qs[i]? with
      | some q =>
        if q.held = none then
          .ok { s with qs := s.qs.set i { q with held := some (.sub t) }, subs := s.subs.set t (.push i j) }
        else .ok s
      | none => .error .ub
    | some (.push i j) => match s.qs[i]? with
      | some q =>
        .ok { s with
          qs := s.qs.set i { q with jobs := q.jobs ++ [j], pushed := q.pushed ++ [j] }
          subs := s.subs.set t (.signal i) }
      | none => .error .ub
    | some (.signal i) => match s.qs[i]? with
      | some q => .ok { s with qs := s.qs.set i { q with w := wakeUp q.w }, subs := s.subs.set t (.unlock i) }
      | none => .error .ub
    | some (.unlock i) => match s.qs[i]? with
      | some q => .ok { s with qs := s.qs.set i { q with held := none }, subs := s.subs.set t .idle }
      | none => .error .ub
    | _ => .ok s
  | .work i => match s.qs[i]? with
    | some q => match q.w with
      | .lock =>
        if q.held = none then .ok { s with qs := s.qs.set i { q with held := some .worker, w := .check } }
        else .ok s
      -- `while(state.jobs.empty() && !shutdown.load()) state.cond.wait(state.mut)` (`rpp/pool.h:149-151`)
      | .check =>
        if q.jobs = [] ∧ ¬ s.shutdown then
          .ok { s with qs := s.qs.set i { q with held := none, w := .asleep } }
        else .ok { s with qs := s.qs.set i { q with w := .check2 } }
      -- `if(shutdown.load()) return; job = state.jobs.front(); state.jobs.pop()` (`rpp/pool.h:152-155`)
      | .check2 =>
        if s.shutdown then .ok { s with qs := s.qs.set i { q with held := none, w := .exit } }
        else match q.jobs with
          | [] => .error .die
          | j :: r =>
            .ok { s with qs := s.qs.set i { q with held := none, jobs := r, w := .run j, taken := q.taken ++ [j] } }
      -- `job.handle.resume()` (`rpp/pool.h:157`) returns
      | .run _ => .ok { s with qs := s.qs.set i { q with w := .lock } }
      | _ => .ok s
    | none => .ok s
  | .spurious i => match s.qs[i]? with
    | some q => if q.w = .asleep then .ok { s with qs := s.qs.set i { q with w := .lock } } else .ok s
    | none => .ok s
  | .shutdown =>
    -- `shutdown.exchange(true)` (`rpp/pool.h:72`)
    if s.dtor = .live then .ok { s with dtor := nextDtor s.qs.length 0 } else .ok s
  | .dtor => match s.dtor with
    -- (`rpp/pool.h:74-77`)
    | .lock i => match s.qs[i]? with
      | some q =>
        if q.held = none then
          .ok { s with qs := s.qs.set i { q with held := some .dtor }, dtor := .signal i }
        else .ok s
      | none => .error .ub
    | .signal i => match s.qs[i]? with
      | some q => .ok { s with qs := s.qs.set i { q with w := wakeUp q.w }, dtor := .unlock i }
      | none => .error .ub
    | .unlock i => match s.qs[i]? with
      | some q =>
        .ok { s with qs := s.qs.set i { q with held := none }, dtor := nextDtor s.qs.length (i + 1) }
      | none => .error .ub
    -- `threads.clear()` joins; then the jobs that are left are destroyed (`rpp/pool.h:78-94`). Nobody
    -- else may be using the pool by then.
    | .join =>
      if (∀ q ∈ s.qs, q.w = .exit) ∧ (∀ u ∈ s.subs, u = .idle) then
        .ok { s with dtor := .gone, destroyed := (s.qs.map Q.jobs).flatten }
      else .ok s
    | _ => .ok s

end Pool
end Rpp
