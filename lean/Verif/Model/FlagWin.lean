import Verif.Model.Flag

/-!
# `Thread::Flag` on Windows (`rpp/w32/thread_w32.cpp:81-98`, `rpp/thread0.h:146`)

The value is a 16-bit counter of the signals. `WaitOnAddress` compares the word with 0 and goes to sleep in one atomic
step, or returns at once; it may also return for no reason. `WakeByAddressAll` wakes everyone asleep on the word.
Simplified: the plain reads of `value_` are taken to be atomic and never cached by the compiler, and
`WaitOnAddress` without time limit never fails.
-/

namespace Rpp
namespace FlagWin
open Flag (Pc wakeUp)

/-- The word (`i16 value_`, `rpp/thread0.h:146`), the threads, and how often so far: a signal has incremented the word, a
signal has completed, a block has returned, `ready` has returned true. -/
structure St where
  value : BitVec 16
  thr : List Pc
  set : Nat
  completed : Nat
  returned : Nat
  readies : Nat
  deriving DecidableEq, Repr

/-- What happens next: thread `t` calls `block`, `signal`, `ready`; it goes on; it is woken for no reason. -/
inductive Ev where
  | block (t : Nat)
  | signal (t : Nat)
  | ready (t : Nat)
  | go (t : Nat)
  | spurious (t : Nat)
  deriving DecidableEq, Repr

/-- A call of `signal`. -/
def isSignal : Ev → Bool
  | .signal _ => true
  | _ => false

/-- A new flag and `n` threads. -/
def St.init (n : Nat) : St := ⟨0, List.replicate n .idle, 0, 0, 0, 0⟩

/-- One step. -/
def step (s : St) : Ev → Res St
  | .block t =>
    if s.thr[t]? = some .idle then .ok { s with thr := s.thr.set t .load } else .ok s
  | .signal t =>
    -- `InterlockedIncrement16(&value_)` (`rpp/w32/thread_w32.cpp:92`)
    if s.thr[t]? = some .idle then
      .ok { s with value := s.value + 1, set := s.set + 1, thr := s.thr.set t .wake } else .ok s
  | .ready t =>
    -- (`rpp/w32/thread_w32.cpp:96-98`)
    if s.thr[t]? = some .idle ∧ s.value ≠ 0 then .ok { s with readies := s.readies + 1 } else .ok s
  | .go t => match s.thr[t]? with
    -- `while(value_ == 0)` (`rpp/w32/thread_w32.cpp:83`)
    | some .load =>
      if s.value ≠ 0 then .ok { s with returned := s.returned + 1, thr := s.thr.set t .idle }
      else .ok { s with thr := s.thr.set t .wait }
    -- `WaitOnAddress` (`rpp/w32/thread_w32.cpp:84`)
    | some .wait => .ok { s with thr := s.thr.set t (if s.value ≠ 0 then .load else .asleep) }
    -- `WakeByAddressAll` (`rpp/w32/thread_w32.cpp:93`)
    | some .wake =>
      .ok { s with completed := s.completed + 1, thr := (s.thr.set t .idle).map wakeUp }
    | _ => .ok s
  | .spurious t =>
    if s.thr[t]? = some .asleep then .ok { s with thr := s.thr.set t .load } else .ok s

end FlagWin
end Rpp
