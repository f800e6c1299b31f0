import Verif.Model.Mem

/-!
# Model: thread ids and threads that join each other

`rpp/thread.h:120-133`, `rpp/pos/thread_pos.cpp:45-47, 291-326`, `rpp/w32/thread_w32.cpp:16-19, 164-203`. Threads are numbered in the order of their
start; the first one is that of `main`. What the system chooses, the handle and the number of a new thread, is part of the event. Left out: failures of
the system calls (they end in `die`), what the threads do otherwise. Who holds the `Thread` object is not recorded: it can be moved to any thread
(C97 is about that there is only one).
-/

namespace Rpp.Joins

/-- The three sets of functions: `rpp/pos/thread_pos.cpp:291-299` distinguishes macOS, `rpp/w32/thread_w32.cpp` is for Windows. -/
inductive Platform where
  | linux
  | mac
  | win
deriving DecidableEq

/-- What a thread does: runs, waits in `sys_join` for another one, or has returned. -/
inductive Stage where
  | running
  | waiting (u : Nat)
  | finished
deriving DecidableEq

/-- A thread: its `pthread_t` or `HANDLE`, the number the kernel gave it, and whether its `Thread` object still holds it (neither joined nor detached). -/
structure Th where
  handle : Nat
  tid : Nat
  stage : Stage
  held : Bool
deriving DecidableEq

/-- All threads ever started, in order. -/
abbrev State := List Th

/-- The system still knows a thread that runs or that may be joined. -/
def Th.inUse (t : Th) : Bool := t.held || decide (t.stage ≠ .finished)

/-- `this_id()` called in the thread (`rpp/pos/thread_pos.cpp:45-47`, `rpp/w32/thread_w32.cpp:16-19`). -/
def thisId : Platform → Th → Nat
  | .linux, t => t.handle
  | .mac, t => t.handle
  | .win, t => t.tid

/-- `sys_id(thread)`, and so `Thread::id()` (`rpp/thread.h:120-123`, `rpp/pos/thread_pos.cpp:291-299`, `rpp/w32/thread_w32.cpp:164-168`). -/
def sysId : Platform → Th → Nat
  | .linux, t => t.handle
  | .mac, t => t.tid
  | .win, t => t.tid

/-- What happens next. -/
inductive Ev where
  /-- Thread `t` starts another one; the system chooses handle and number. -/
  | start (t handle tid : Nat)
  /-- Thread `t` calls `join` for thread `u`. -/
  | join (t u : Nat)
  /-- `join` returns in thread `t`. -/
  | wake (t : Nat)
  /-- Thread `t` calls `detach` for thread `u`. -/
  | detach (t u : Nat)
  /-- Thread `t` returns. -/
  | exit (t : Nat)
deriving DecidableEq

/-- Thread `t` is there and does `x`. -/
def does (s : State) (t : Nat) (x : Stage) : Bool := decide ((s[t]?).map Th.stage = some x)

/-- Nobody waits for `u`. -/
def unclaimed (s : State) (u : Nat) : Bool := s.all fun x => decide (x.stage ≠ .waiting u)

/-- The check at the beginning of `sys_join` (`rpp/pos/thread_pos.cpp:303`, `rpp/w32/thread_w32.cpp:171-172`): `true` if it fails. -/
def selfJoin (p : Platform) (a b : Th) : Bool :=
  match p with
  | .linux => decide (a.handle = b.handle)
  | .mac => decide (a.handle = b.handle)
  | .win => decide (sysId .win b = thisId .win a)

/-- One event (`sys_start`, `sys_join`, `sys_detach`: `rpp/pos/thread_pos.cpp:301-326`, `rpp/w32/thread_w32.cpp:170-203`); `none` if it cannot happen. The
handle of a new thread is not 0 (`rpp/pos/thread_pos.cpp:324` asserts it) and, as its number, not in use. On macOS numbers are not used a second
time. A thread that another one is waiting for is not joined or detached again: that would be a second use of the one `Thread` object. -/
def step (p : Platform) (s : State) : Ev → Option (Res State)
  | .start t h i =>
    if does s t .running && decide (h ≠ 0) && s.all (fun x => !x.inUse || (decide (x.handle ≠ h) && decide (x.tid ≠ i))) &&
        (decide (p ≠ .mac) || s.all (fun x => decide (x.tid ≠ i)))
    then some (.ok (s ++ [⟨h, i, .running, true⟩]))
    else none
  | .join t u =>
    match s[t]?, s[u]? with
    | some a, some b =>
      if does s t .running && b.held && unclaimed s u then
        if selfJoin p a b then some (.error .die) else some (.ok (s.set t { a with stage := .waiting u }))
      else none
    | _, _ => none
  | .wake t =>
    match s[t]? with
    | some a =>
      match a.stage with
      | .waiting u =>
        match s[u]? with
        | some b => if b.stage = .finished then some (.ok ((s.set u { b with held := false }).modify t fun a => { a with stage := .running })) else none
        | none => none
      | _ => none
    | none => none
  | .detach t u =>
    match s[u]? with
    | some b => if does s t .running && b.held && unclaimed s u then some (.ok (s.set u { b with held := false })) else none
    | none => none
  | .exit t =>
    match s[t]? with
    | some a => if does s t .running then some (.ok (s.set t { a with stage := .finished })) else none
    | none => none

/-- Several events; `none` if one of them cannot happen. -/
def run (p : Platform) (s : State) : List Ev → Option (Res State)
  | [] => some (.ok s)
  | e :: es =>
    match step p s e with
    | some (.ok s) => run p s es
    | some (.error x) => some (.error x)
    | none => none

/-- The thread of `main` alone. Nobody holds a `Thread` for it. -/
def init (handle tid : Nat) : State := [⟨handle, tid, .running, false⟩]

end Rpp.Joins
