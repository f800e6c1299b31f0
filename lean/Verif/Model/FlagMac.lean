import Verif.Model.Sched

/-!
# `Thread::Flag` on macOS (`rpp/pos/thread_pos.cpp:169-170,182-184,192-193`, `rpp/thread0.h:150-152`)

A mutex, a condition variable and a bool. `pthread_cond_wait` gives up the mutex and goes to sleep in one step; a
thread that is woken takes the mutex again before it goes on. Locking a mutex that is held waits; which of several
waiting threads gets it is up to the schedule. Simplified: the system calls do not fail.
-/

namespace Rpp
namespace FlagMac

/-- Where a thread is: outside; in `block`: about to lock, at the test holding the mutex, asleep in `cond.wait`, woken and
about to take the mutex again; in `signal`: about to lock, holding the mutex, about to unlock; in `ready`: about to
lock, holding the mutex. -/
inductive Pc where
  | idle | bLock | bTest | asleep | bWoken | sLock | sHeld | sUnlock | rLock | rHeld
  deriving DecidableEq, Repr

/-- The flag: who holds the mutex, `signaled`; the threads; and how often so far: a signal has set the flag, a signal
has completed, a block has returned, `ready` has returned true, `ready` has returned false. -/
structure St where
  holder : Option Nat
  signaled : Bool
  thr : List Pc
  set : Nat
  completed : Nat
  returned : Nat
  yes : Nat
  no : Nat
  deriving DecidableEq, Repr

/-- What happens next: thread `t` calls `block`, `signal`, `ready`; it goes on; it is woken for no reason. -/
inductive Ev where
  | block (t : Nat)
  | signal (t : Nat)
  | ready (t : Nat)
  | go (t : Nat)
  | spurious (t : Nat)
  deriving DecidableEq, Repr

/-- A new flag and `n` threads. -/
def St.init (n : Nat) : St := ⟨none, false, List.replicate n .idle, 0, 0, 0, 0, 0⟩

/-- Threads asleep have to take the mutex again. -/
def wakeUp : Pc → Pc
  | .asleep => .bWoken
  | p => p

/-- `Lock lock(mutex)`: waits while the mutex is held. -/
def acquire (s : St) (t : Nat) (p : Pc) : Res St :=
  if s.holder = none then .ok { s with holder := some t, thr := s.thr.set t p } else .ok s

/-- One step. -/
def step (s : St) : Ev → Res St
  | .block t => if s.thr[t]? = some .idle then .ok { s with thr := s.thr.set t .bLock } else .ok s
  | .signal t => if s.thr[t]? = some .idle then .ok { s with thr := s.thr.set t .sLock } else .ok s
  | .ready t => if s.thr[t]? = some .idle then .ok { s with thr := s.thr.set t .rLock } else .ok s
  | .go t => match s.thr[t]? with
    | some .bLock => acquire s t .bTest
    | some .bWoken => acquire s t .bTest
    -- `while(!signaled) cond.wait(mutex)` (`rpp/pos/thread_pos.cpp:170`)
    | some .bTest =>
      if s.signaled then .ok { s with holder := none, returned := s.returned + 1, thr := s.thr.set t .idle }
      else .ok { s with holder := none, thr := s.thr.set t .asleep }
    | some .sLock => acquire s t .sHeld
    -- `signaled = true; cond.broadcast()` (`rpp/pos/thread_pos.cpp:183-184`)
    | some .sHeld => .ok { s with signaled := true, set := s.set + 1, thr := (s.thr.set t .sUnlock).map wakeUp }
    | some .sUnlock => .ok { s with holder := none, completed := s.completed + 1, thr := s.thr.set t .idle }
    | some .rLock => acquire s t .rHeld
    -- `return signaled` (`rpp/pos/thread_pos.cpp:193`)
    | some .rHeld =>
      if s.signaled then .ok { s with holder := none, yes := s.yes + 1, thr := s.thr.set t .idle }
      else .ok { s with holder := none, no := s.no + 1, thr := s.thr.set t .idle }
    | _ => .ok s
  | .spurious t => if s.thr[t]? = some .asleep then .ok { s with thr := s.thr.set t .bWoken } else .ok s

end FlagMac
end Rpp
