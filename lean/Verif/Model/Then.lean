import Verif.Model.Sched

/-!
# `Task::then` (`rpp/async.h:215-224`)

`t.then(f)` is a coroutine that awaits `t`, calls `f` with the result and awaits the task `f` returns. It is a
member function with a reference parameter: its frame keeps the address of `t` and a reference to `f`. It
starts at once on the caller's thread (`initial_suspend`, `rpp/async.h:84-86`). When it is suspended or finished, the caller
goes on; at the end of the full expression the temporaries die. `f` is a temporary, as in
`t.then([](int x) -> Task<int> { ... })`; `t` is one or not.

Simplified: the task `f` returns for argument `x` has the result `g x`, and awaiting it ends at some time (C55, C56). The flag
and the steps of the coroutine of `t` before it stores its value are left out.
-/

namespace Rpp
namespace Then

/-- The state word of the promise of `t` (`rpp/async.h:45-47`); `cont` is the address of the coroutine of `then`. -/
inductive Word where
  | start | done | abandoned | cont
  deriving DecidableEq, Repr

/-- Where the coroutine of `t` is: running; value stored, about to exchange the state word; about to resume
the coroutine of `then`; about to destroy its frame; finished. -/
inductive Co where
  | run | stored | resume | destroy | fin
  deriving DecidableEq, Repr

/-- Where the coroutine of `then` is: at `await_ready`, at `await_suspend`, suspended, at `await_resume`, at
the call of `f`, awaiting the task of `f`, finished. -/
inductive Pc where
  | load | cas | suspended | take | call | await | fin
  deriving DecidableEq, Repr

/-- The state word and value of `t`, whether its frame and its `Task` object exist, whether `f` exists, whether
`then` has returned to its caller, whether the full expression is over, the argument of `f`, and the result. -/
structure St where
  word : Word
  val : Option Nat
  frame : Bool
  task : Bool
  fn : Bool
  ret : Bool
  over : Bool
  co : Co
  pc : Pc
  arg : Option Nat
  res : Option Nat
  deriving DecidableEq, Repr

/-- What happens next: the coroutine of `t` goes on, the coroutine of `then` goes on, the full expression of the
caller ends. -/
inductive Ev where
  | co | go | endExpr
  deriving DecidableEq, Repr

/-- `then` is called; `t` is running. -/
def St.init : St := ⟨.start, none, true, true, true, false, false, .run, .load, none, none⟩

/-- One step; `tmp` tells if `t` is a temporary, `v` is the value `t` will have. -/
def step (g : Nat → Nat) (v : Nat) (tmp : Bool) (s : St) : Ev → Res St
  | .co => match s.co with
    -- `value = move(val)` (`rpp/async.h:118-125`)
    | .run => if s.frame then .ok { s with val := some v, co := .stored } else .error .ub
    -- `state.exchange(TASK_DONE)` (`rpp/async.h:60-66`)
    | .stored =>
      if s.frame then
        .ok { s with
          word := .done
          co := match s.word with
            | .abandoned => .destroy
            | .cont => .resume
            | _ => .fin }
      else .error .ub
    | .resume => if s.pc = .suspended then .ok { s with co := .fin, pc := .take } else .error .ub
    | .destroy => if s.frame then .ok { s with co := .fin, frame := false } else .error .ub
    | .fin => .ok s
  | .go => match s.pc with
    -- `co_await *this` (`rpp/async.h:222`, 179-187): `this` is the `Task` object
    | .load =>
      if s.task ∧ s.frame then .ok { s with pc := if s.word = .done then .take else .cas } else .error .ub
    | .cas =>
      if s.task ∧ s.frame then
        .ok (if s.word = .start then { s with word := .cont, pc := .suspended, ret := true }
          else { s with pc := .take })
      else .error .ub
    | .suspended => .ok s
    -- `await_resume` (`rpp/async.h:188-195`)
    | .take =>
      if s.task ∧ s.frame ∧ s.val.isSome then .ok { s with arg := s.val, pc := .call } else .error .ub
    -- `f(...)` (`rpp/async.h:222`)
    | .call => if s.fn then .ok { s with pc := .await, ret := true } else .error .ub
    -- `co_return (co_await ...)`
    | .await => .ok { s with pc := .fin, res := s.arg.map g }
    | .fin => .ok s
  | .endExpr =>
    if s.ret = true ∧ s.over = false then
      if tmp then
        -- `~Task` (`rpp/async.h:153-163`)
        if s.frame then
          match s.word with
          | .done => .ok { s with word := .abandoned, frame := false, task := false, fn := false, over := true }
          | .start => .ok { s with word := .abandoned, task := false, fn := false, over := true }
          | _ => .error .die
        else .error .ub
      else .ok { s with fn := false, over := true }
    else .ok s

end Then
end Rpp
