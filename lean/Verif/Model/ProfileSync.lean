import Verif.Model.Sched

/-!
# Model: threads that use the profiler

`rpp/profile.h:82-104, 136-158` and `rpp/impl/profile.cpp:18-36, 62-116, 142-148, 192-197`. Threads record frames in their own
`Thread_Profile`, and `iterate_timings` reads those of all threads in the table. What the frames hold is in
`Verif.Model.Frames`; here only their number counts, and who touches them when. Reading or changing the frames of a
thread takes two steps, and a change of them during another access is a data race, so undefined behaviour. The
allocation statistics and their lock are left out: while it is held no other lock of the profiler is taken.
`iterate_timings` passes one node of each thread to the callback.
-/

namespace Rpp.PSync

/-- Calls of a thread: `begin_frame`, `end_frame`, `enter` or `exit`, and `alloc`. -/
inductive Op where
  | begin | finish | scope | alloc
  deriving DecidableEq, Repr

/-- What the callback given to `iterate_timings` does: nothing with the profiler, allocate from an allocator that is
recorded, or enter a scope. -/
inductive Cb where
  | none | alloc | scope
  deriving DecidableEq, Repr

/-- Where a thread is.
* `regLock`, `regHeld`: in `register_thread`, before and after it has the lock of the table.
* `opLock`, `opHeld`, `opWrite`: in a call, before and after it has the lock of its frames, and changing them.
* `itLock`: in `iterate_timings`, before it has the lock of the table; `itNext r`: `r` remain; `itHeld u r`: it has
  the lock of the frames of `u`; `itRead u r`: it reads them and runs the callback; `cbReg`, `cbLock`: the callback waits for
  the lock of the table, or of the thread's own frames.
* `endWrite`, `unregLock`, `unregHeld`, `gone`: the thread ends (`Thread_Profile::finalize`). -/
inductive Pc where
  | idle
  | regLock (op : Op) | regHeld (op : Op)
  | opLock (op : Op) | opHeld (op : Op) | opWrite (op : Op)
  | itLock (cb : Cb) | itNext (cb : Cb) (r : List Nat) | itHeld (cb : Cb) (u : Nat) (r : List Nat)
  | itRead (cb : Cb) (u : Nat) (r : List Nat) | cbReg (u : Nat) (r : List Nat) | cbLock (cb : Cb) (u : Nat) (r : List Nat)
  | endWrite | unregLock | unregHeld | gone
  deriving DecidableEq, Repr

/-- `Thread_Profile` of one thread (`rpp/profile.h:136-158`). `lock` is who holds `frames_lock`; `readers` and
`writing` are the accesses to the frames under way. -/
structure Thr where
  registered : Bool := false
  during : Bool := false
  frames : Nat := 0
  lock : Option Nat := none
  readers : Nat := 0
  writing : Bool := false
  pc : Pc := .idle
  deriving DecidableEq, Repr

/-- All threads, who holds `threads_lock`, and the table `threads` (`rpp/profile.h:160-164`). -/
structure St where
  thr : Nat → Thr := fun _ => {}
  lock : Option Nat := none
  table : List Nat := []

/-- Change one thread. -/
def St.upd (s : St) (t : Nat) (f : Thr → Thr) : St := { s with thr := fun i => if i = t then f (s.thr i) else s.thr i }

/-- Events: thread `t` makes a call, calls `iterate_timings`, ends, or takes the next step of what it does. -/
inductive Ev where
  | call (t : Nat) (op : Op)
  | iterate (t : Nat) (cb : Cb)
  | exit (t : Nat)
  | go (t : Nat)
  deriving DecidableEq, Repr

/-- A call once the thread is registered: `begin_frame` asserts that no frame is open (`rpp/impl/profile.cpp:64`); `enter` and
`exit` do nothing outside of frames (`:105, :112, :144`). -/
def afterReady (s : St) (t : Nat) : Op → Res St
  | .scope => if (s.thr t).during then .ok (s.upd t ({ · with pc := .opLock .scope })) else .ok (s.upd t ({ · with pc := .idle }))
  | .begin => if (s.thr t).during then .error .die else .ok (s.upd t ({ · with pc := .opLock .begin }))
  | op => .ok (s.upd t ({ · with pc := .opLock op }))

/-- Start of a call. -/
def call (s : St) (t : Nat) : Op → Res St
  -- `alloc` takes the lock first (`rpp/impl/profile.cpp:193`)
  | .alloc => .ok (s.upd t ({ · with pc := .opLock .alloc }))
  -- `end_frame` asserts that a frame is open (`:90`)
  | .finish => if (s.thr t).registered ∧ (s.thr t).during then .ok (s.upd t ({ · with pc := .opLock .finish })) else .error .die
  -- `ready()` (`rpp/profile.h:149-152`)
  | op => if (s.thr t).registered then afterReady s t op else .ok (s.upd t ({ · with pc := .regLock op }))

/-- What a call does to the frames (`rpp/impl/profile.cpp:69-84, 95-100`): the queue holds eight frames. -/
def effect : Op → Thr → Thr
  | .begin, x => { x with during := true, frames := min (x.frames + 1) 8 }
  | .finish, x => { x with during := false }
  | _, x => x

/-- Whether `iterate_timings` shows a frame of the thread (`rpp/profile.h:91-98`). -/
def shows (x : Thr) : Bool := (x.during && decide (1 < x.frames)) || (!x.during && decide (0 < x.frames))

/-- Beginning to change the frames of `t`. -/
def startWrite (s : St) (t : Nat) (pc : Pc) : Res St :=
  if (s.thr t).readers ≠ 0 ∨ (s.thr t).writing then .error .ub else .ok (s.upd t ({ · with writing := true, pc := pc }))

/-- Leaving the entry of `u` in `iterate_timings`: its lock is released (`rpp/profile.h:89`). -/
def leave (s : St) (t u : Nat) (cb : Cb) (r : List Nat) : St :=
  (s.upd u ({ · with lock := none, readers := (s.thr u).readers - 1 })).upd t ({ · with pc := .itNext cb r })

/-- The next step of thread `t`. -/
def go (s : St) (t : Nat) : Res St :=
  match (s.thr t).pc with
  | .idle | .gone => .ok s
  -- `register_thread` (`rpp/impl/profile.cpp:18-27`)
  | .regLock op => match s.lock with
    | none => .ok { s.upd t ({ · with pc := .regHeld op }) with lock := some t }
    | some _ => .ok s
  | .regHeld op =>
    if t ∈ s.table then .error .die
    else afterReady { s.upd t ({ · with registered := true, during := false }) with lock := none, table := s.table ++ [t] } t op
  -- `Thread::Lock lock(frames_lock)`
  | .opLock op => match (s.thr t).lock with
    | none => .ok (s.upd t ({ · with lock := some t, pc := .opHeld op }))
    | some _ => .ok s
  | .opHeld op =>
    -- `if(this_thread.during_frame)` (`rpp/impl/profile.cpp:194`)
    if op = .alloc ∧ ¬ (s.thr t).during then .ok (s.upd t ({ · with lock := none, pc := .idle }))
    else startWrite s t (.opWrite op)
  | .opWrite op => .ok (s.upd t (fun x => { effect op x with lock := none, writing := false, pc := .idle }))
  -- `iterate_timings` (`rpp/profile.h:82-104`)
  | .itLock cb => match s.lock with
    | none => .ok { s.upd t ({ · with pc := .itNext cb s.table }) with lock := some t }
    | some _ => .ok s
  | .itNext _ [] => .ok { s.upd t ({ · with pc := .idle }) with lock := none }
  | .itNext cb (u :: r) =>
    -- the table refers to memory of the thread
    if (s.thr u).pc = .gone then .error .ub
    else match (s.thr u).lock with
      | none => .ok ((s.upd u ({ · with lock := some t })).upd t ({ · with pc := .itHeld cb u r }))
      | some _ => .ok s
  | .itHeld cb u r =>
    if (s.thr u).writing then .error .ub
    else if shows (s.thr u) then .ok ((s.upd u (fun x => { x with readers := x.readers + 1 })).upd t ({ · with pc := .itRead cb u r }))
    else .ok ((s.upd u ({ · with lock := none })).upd t ({ · with pc := .itNext cb r }))
  | .itRead cb u r => match cb with
    | .none => .ok (leave s t u cb r)
    | .alloc => .ok (s.upd t ({ · with pc := .cbLock cb u r }))
    | .scope =>
      if (s.thr t).registered then
        if (s.thr t).during then .ok (s.upd t ({ · with pc := .cbLock cb u r })) else .ok (leave s t u cb r)
      else .ok (s.upd t ({ · with pc := .cbReg u r }))
  -- the callback registers its thread, which needs the lock that `iterate_timings` holds
  | .cbReg u r => match s.lock with
    | none => .ok (leave { s.upd t ({ · with registered := true, during := false }) with table := s.table ++ [t] } t u .scope r)
    | some _ => .ok s
  | .cbLock cb u r => match (s.thr t).lock with
    | none => if (s.thr t).readers ≠ 0 ∨ (s.thr t).writing then .error .ub else .ok (leave s t u cb r)
    | some _ => .ok s
  -- `Thread_Profile::finalize` (`rpp/profile.h:143-147`): `frames = {}` is done; then `end_frame` would fail its check that there
  -- is a frame (`rpp/impl/profile.cpp:95`)
  | .endWrite =>
    if (s.thr t).during then .error .die
    else .ok (s.upd t ({ · with frames := 0, writing := false, pc := if (s.thr t).registered then .unregLock else .gone }))
  -- `unregister_thread` (`rpp/impl/profile.cpp:29-36`)
  | .unregLock => match s.lock with
    | none => .ok { s.upd t ({ · with pc := .unregHeld }) with lock := some t }
    | some _ => .ok s
  | .unregHeld => .ok { s.upd t ({ · with registered := false, pc := .gone }) with lock := none, table := s.table.filter (· ≠ t) }

/-- One event. -/
def step (s : St) : Ev → Res St
  | .call t op => if (s.thr t).pc = .idle then call s t op else .ok s
  | .iterate t cb => if (s.thr t).pc = .idle then .ok (s.upd t ({ · with pc := .itLock cb })) else .ok s
  -- the destructor of the thread's `Thread_Profile`: `frames = {}` takes no lock (`rpp/profile.h:144`)
  | .exit t => if (s.thr t).pc = .idle then startWrite s t .endWrite else .ok s
  | .go t => go s t

end Rpp.PSync
