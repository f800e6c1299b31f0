import Verif.Model.Sched

/-!
# `Async::Task` (`rpp/async.h:45-228`)

One coroutine with its `Task` object, and any number of users that await the task from another coroutine
or block on it. The frame holds the promise: the state word, the flag and the value. `flag.block()` is
taken as a step that is possible once the flag is set (`Verif.Props.Flag`). A user awaits or blocks once.
The owner may destroy the `Task` object at any time at which nobody is using it, as a `co_await` or a
`block` on a variable or temporary ensures. What the coroutine does before `co_return` is one step.
-/

namespace Rpp
namespace Task

/-- The state word of the promise (`rpp/async.h:45-47`): `TASK_START`, `TASK_DONE`, `TASK_ABANDONED`, or the
address of the coroutine of user `k`. -/
inductive Word where
  | start | done | abandoned
  | cont (k : Nat)
  deriving DecidableEq, Repr

/-- The value in the promise. -/
inductive Slot where
  | unset
  | full (v : Nat)
  | moved
  deriving DecidableEq, Repr

/-- Where the coroutine is: running; value stored; flag set;
flag signalled (now the locals are destroyed); the state word exchanged, with the frame or the coroutine of user `k` to take care of; finished. -/
inductive Co where
  | run (v : Nat)
  | stored | waking | signalled
  | destroy
  | resume (k : Nat)
  | fin
  deriving DecidableEq, Repr

/-- The `Task` object: alive; its destructor saw `TASK_DONE` and has the frame to destroy; destroyed. -/
inductive Owner where
  | holds | destroying | gone
  deriving DecidableEq, Repr

/-- How a user gets at the result. -/
inductive Kind where
  | await | block
  deriving DecidableEq, Repr

/-- Where a user is: not started; at the load of `await_ready`; at the compare and swap of `await_suspend`;
suspended; waiting for the flag in `block`; at `await_resume`; finished. -/
inductive Pc where
  | idle | load | cas | suspended | wait | take | done
  deriving DecidableEq, Repr

/-- Everything. `got` is what `await_resume` returned, in order. -/
structure St where
  word : Word
  slot : Slot
  flag : Bool
  frame : Bool
  destroyed : Nat
  co : Co
  owner : Owner
  users : List (Kind × Pc)
  got : List Slot
  deriving DecidableEq, Repr

/-- What happens next: user `t` starts; it goes on; the coroutine goes on; the `Task` object is destroyed; its
destructor goes on. -/
inductive Ev where
  | start (t : Nat)
  | go (t : Nat)
  | co
  | drop
  | own
  deriving DecidableEq, Repr

/-- A coroutine that will return `v`, and users of the given kinds. -/
def St.init (v : Nat) (ks : List Kind) : St :=
  ⟨.start, .unset, false, true, 0, .run v, .holds, ks.map (·, .idle), []⟩

/-- Nobody is between the start and the end of using the task. -/
def St.unused (s : St) : Bool := s.users.all fun u => u.2 = .idle ∨ u.2 = .done

/-- Access to the frame. -/
def access (s : St) (r : St) : Res St := if s.frame then .ok r else .error .ub

/-- One step. -/
def step (s : St) : Ev → Res St
  | .start t => match s.users[t]?, s.owner with
    | some (.await, .idle), .holds => .ok { s with users := s.users.set t (.await, .load) }
    | some (.block, .idle), .holds => .ok { s with users := s.users.set t (.block, .wait) }
    | _, _ => .ok s
  | .go t => match s.users[t]? with
    -- `state.load() == TASK_DONE` (`rpp/async.h:179-182`)
    | some (k, .load) =>
      access s { s with users := s.users.set t (k, if s.word = .done then .take else .cas) }
    -- `state.compare_and_swap(TASK_START, cont) == TASK_START` (`rpp/async.h:183-187`)
    | some (k, .cas) =>
      access s (if s.word = .start then
        { s with word := .cont t, users := s.users.set t (k, .suspended) }
      else { s with users := s.users.set t (k, .take) })
    -- `handle.promise().block()` (`rpp/async.h:205-207`)
    | some (k, .wait) =>
      access s (if s.flag then { s with users := s.users.set t (k, .take) } else s)
    -- `return move(handle.promise().value)` (`rpp/async.h:188-195`)
    | some (k, .take) =>
      access s { s with got := s.got ++ [s.slot], slot := .moved, users := s.users.set t (k, .done) }
    | _ => .ok s
  | .co => match s.co with
    -- `value = move(val)` (`rpp/async.h:118-125`)
    | .run v => access s { s with slot := .full v, co := .stored }
    -- `flag.signal()`: the exchange, then the wake (`rpp/async.h:124`)
    | .stored => access s { s with flag := true, co := .waking }
    | .waking => access s { s with co := .signalled }
    -- `state.exchange(TASK_DONE)` (`rpp/async.h:60-66`)
    | .signalled =>
      access s { s with
        word := .done
        co := match s.word with
          | .abandoned => .destroy
          | .cont k => .resume k
          | _ => .fin }
    -- `handle.destroy()` (`rpp/async.h:63`)
    | .destroy => access s { s with frame := false, destroyed := s.destroyed + 1, co := .fin }
    -- the coroutine handle returned by `await_suspend` is resumed (`rpp/async.h:65`); this needs a suspended
    -- coroutine
    | .resume k => match s.users[k]? with
      | some (c, .suspended) => .ok { s with co := .fin, users := s.users.set k (c, .take) }
      | _ => .error .ub
    | .fin => .ok s
  | .drop =>
    -- `~Task` (`rpp/async.h:153-163`)
    if s.owner = .holds ∧ s.unused = true then
      match s.word with
      | .done => access s { s with word := .abandoned, owner := .destroying }
      | .start => access s { s with word := .abandoned, owner := .gone }
      | _ => .error .die
    else .ok s
  | .own => match s.owner with
    | .destroying => access s { s with frame := false, destroyed := s.destroyed + 1, owner := .gone }
    | _ => .ok s

end Task
end Rpp
