import Verif.Model.Sched

/-!
# `Thread::Flag` on Linux (`rpp/pos/thread_pos.cpp:160-195`)

The value is one futex word. `FUTEX_WAIT` compares the word with 0 and goes to sleep in one atomic step,
or fails with `EAGAIN`; `FUTEX_WAKE` with the largest count wakes everyone asleep on the word. A sleeper
may also be woken for no reason. A signal handler may interrupt it: then `FUTEX_WAIT` fails with
`EINTR` and `block` ends the program.
-/

namespace Rpp
namespace Flag

/-- Where a thread is: outside; at the load of `block`; at the call of `FUTEX_WAIT`; asleep in it; between
the exchange and `FUTEX_WAKE` in `signal`. -/
inductive Pc where
  | idle | load | wait | asleep | wake
  deriving DecidableEq, Repr

/-- The word, the threads, and how often so far: a signal has set the word, a signal has completed, a block
has returned, `ready` has returned true. -/
structure St where
  value : Bool
  thr : List Pc
  set : Nat
  completed : Nat
  returned : Nat
  readies : Nat
  deriving DecidableEq, Repr

/-- What happens next: thread `t` calls `block`, `signal`, `ready`; it goes on; it is woken for no reason;
it is interrupted. -/
inductive Ev where
  | block (t : Nat)
  | signal (t : Nat)
  | ready (t : Nat)
  | go (t : Nat)
  | spurious (t : Nat)
  | intr (t : Nat)
  deriving DecidableEq, Repr

/-- A new flag and `n` threads. -/
def St.init (n : Nat) : St := ⟨false, List.replicate n .idle, 0, 0, 0, 0⟩

/-- Threads asleep become runnable: they go back to the load (`rpp/pos/thread_pos.cpp:162`). -/
def wakeUp : Pc → Pc
  | .asleep => .load
  | p => p

/-- One step. -/
def step (s : St) : Ev → Res St
  | .block t =>
    if s.thr[t]? = some .idle then .ok { s with thr := s.thr.set t .load } else .ok s
  | .signal t =>
    -- `__atomic_exchange_n(&value_, 1)` (`rpp/pos/thread_pos.cpp:176`)
    if s.thr[t]? = some .idle then
      .ok { s with value := true, set := s.set + 1, thr := s.thr.set t .wake } else .ok s
  | .ready t =>
    -- (`rpp/pos/thread_pos.cpp:188-195`)
    if s.thr[t]? = some .idle ∧ s.value then .ok { s with readies := s.readies + 1 } else .ok s
  | .go t => match s.thr[t]? with
    -- `while(__atomic_load_n(&value_) == 0)` (`rpp/pos/thread_pos.cpp:162`)
    | some .load =>
      if s.value then .ok { s with returned := s.returned + 1, thr := s.thr.set t .idle }
      else .ok { s with thr := s.thr.set t .wait }
    -- `FUTEX_WAIT` (`rpp/pos/thread_pos.cpp:163-166`)
    | some .wait => .ok { s with thr := s.thr.set t (if s.value then .load else .asleep) }
    -- `FUTEX_WAKE` (`rpp/pos/thread_pos.cpp:177-180`)
    | some .wake =>
      .ok { s with completed := s.completed + 1, thr := (s.thr.set t .idle).map wakeUp }
    | _ => .ok s
  | .spurious t =>
    if s.thr[t]? = some .asleep then .ok { s with thr := s.thr.set t .load } else .ok s
  | .intr t =>
    -- `ret == -1 && errno != EAGAIN` (`rpp/pos/thread_pos.cpp:164-166`)
    if s.thr[t]? = some .asleep then .error .die else .ok s

end Flag
end Rpp
