import Verif.Model.Mem

/-!
# Model: handles of coroutines

`rpp/std/coroutine.h:46-208` and their use in `rpp/async.h:45-200`. A frame begins with two pointers, to the code that resumes and to the code that destroys;
the promise follows where its alignment allows. `__builtin_coro_promise(p, al, from)` adds or subtracts this distance for the alignment `al`; the header
passes 0 (`rpp/std/coroutine.h:101, 148`). Left out: what the coroutines do, the interleaving of threads (`Model/Task`), allocation of the frames.
-/

namespace Rpp.Handles

abbrev Addr := BitVec 64

/-- The first multiple of `al` that is at least 16, where 0 counts as 1: how compilers compute the distance of the promise. -/
def distance (al : Nat) : Nat := (16 + (max al 1 - 1)) / max al 1 * max al 1

/-- `__builtin_coro_promise` (called at `rpp/std/coroutine.h:101, 148`). -/
def coroPromise (p : Addr) (al : Nat) (fromPromise : Bool) : Addr :=
  if fromPromise then p - BitVec.ofNat 64 (distance al) else p + BitVec.ofNat 64 (distance al)

/-- `coroutine_handle<_Promise>` (`rpp/std/coroutine.h:92-153`); also `coroutine_handle<>` (45-90), which has the same member. -/
structure Handle where
  ptr : Addr
deriving DecidableEq

/-- `from_promise` (`rpp/std/coroutine.h:98-105`). -/
def fromPromise (x : Addr) : Handle := ⟨coroPromise x 0 true⟩

/-- `promise` (`rpp/std/coroutine.h:147-149`). -/
def Handle.promise (h : Handle) : Addr := coroPromise h.ptr 0 false

/-- `operator==` (`rpp/std/coroutine.h:155-158`). -/
def Handle.eq (a b : Handle) : Bool := decide (a.ptr = b.ptr)

/-- `operator bool` (`rpp/std/coroutine.h:127-129`). -/
def Handle.bool (h : Handle) : Bool := decide (h.ptr ≠ 0)

/-- The coroutines that are suspended, by the address of the frame, and the state words of the promises (`state`, the first member, `rpp/async.h:106`) by
the address of the promise. -/
structure World where
  suspended : Addr → Bool
  state : Addr → Option (BitVec 64)

/-- `resume` (`rpp/std/coroutine.h:139-141`): gives the frame that goes on. -/
def Handle.resume (w : World) (h : Handle) : Res Addr := if w.suspended h.ptr then .ok h.ptr else .error .ub

/-- `destroy` (`rpp/std/coroutine.h:143-145`): the frame is gone, with its promise, which lies `al` after the frame. -/
def Handle.destroy (w : World) (al : Nat) (h : Handle) : Res World :=
  if w.suspended h.ptr then
    .ok { suspended := fun x => if x = h.ptr then false else w.suspended x,
          state := fun x => if x = h.ptr + BitVec.ofNat 64 (distance al) then none else w.state x }
  else .error .ub

/-- `TASK_START`, `TASK_DONE` and `TASK_ABANDONED` (`rpp/async.h:45-47`). -/
def taskStart : BitVec 64 := 0
def taskDone : BitVec 64 := 1
def taskAbandoned : BitVec 64 := 2

/-- `get_return_object`: the `Task` of the promise at `x` (`rpp/async.h:115-117, 149-151`). -/
def taskOf (x : Addr) : Handle := fromPromise x

/-- `Task::await_suspend` (`rpp/async.h:183-187`) of the task `h` in the coroutine `c`: `true` if `c` stays suspended. -/
def awaitSuspend (w : World) (h c : Handle) : Res (Bool × World) :=
  match w.state h.promise with
  | none => .error .ub
  | some st =>
    if st = taskStart then .ok (true, { w with state := fun x => if x = h.promise then some c.ptr else w.state x }) else .ok (false, w)

/-- What goes on after `Final_Suspend`. -/
inductive Next where
  | resumed (frame : Addr)
  | noop
deriving DecidableEq

/-- `Final_Suspend::await_suspend` (`rpp/async.h:56-69`); the compiler passes the handle of the frame. The promise has alignment `al`. The handle that is
returned is resumed. -/
def finalSuspend (w : World) (al : Nat) (h : Handle) : Res (Next × World) :=
  match w.state h.promise with
  | none => .error .ub
  | some st =>
    let w := { w with state := fun x => if x = h.promise then some taskDone else w.state x }
    if st = taskAbandoned then do
      let w ← h.destroy w al
      return (.noop, w)
    else if st ≠ taskStart then do
      let f ← Handle.resume w ⟨st⟩
      return (.resumed f, w)
    else return (.noop, w)

/-- `~Task` (`rpp/async.h:153-163`). -/
def dropTask (w : World) (al : Nat) (h : Handle) : Res World :=
  if h.bool then
    match w.state h.promise with
    | none => .error .ub
    | some st =>
      let w := { w with state := fun x => if x = h.promise then some taskAbandoned else w.state x }
      if st = taskDone then h.destroy w al
      else if st ≠ taskStart then .error .die
      else .ok w
  else .ok w

end Rpp.Handles
