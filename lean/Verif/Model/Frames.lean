import Verif.Model.Profile
import Verif.Model.Queue
import Verif.Spec.Frames

/-!
# Model: the frames a thread keeps

`rpp/impl/profile.cpp:19-36, 62-116, 142-148` and `Thread_Profile` (`rpp/profile.h:136-158`): one thread with
its queue of frames (the queue is the model of `Verif.Model.Queue`, the frames are those of
`Verif.Model.Profile`). A frame that is changed through the reference returned by `back()` is read, changed
and written back. The lock and the table of threads are left out; registering a thread succeeds. `begin_frame`
returns the raw duration (its conversion to seconds is floating point), or nothing for the first frame.
-/

namespace Rpp.Prof

open Rpp.Spec.Frames (Op)

variable {L : Type} [DecidableEq L]

/-- `Thread_Profile` (`rpp/profile.h:136-158`). -/
structure Thread where
  registered : Bool := false
  during : Bool := false
  frames : Queue := Queue.nil
deriving DecidableEq

/-- A computation that does not touch the memory of the queue. -/
def lift {α β : Type} (r : Res β) : M α β := fun h =>
  match r with
  | .ok b => .ok (b, h)
  | .error e => .error e

/-- Change a frame through the reference returned by `frames.back()` (`rpp/queue.h:197-204`). -/
def onBack (q : Queue) (f : Frame L → Res (Frame L)) : M (Frame L) Unit := do
  let x ← Queue.back q
  let y ← lift (f x)
  Queue.set q (q.len - 1) y

/-- `ready()` (`rpp/profile.h:149-152`), with `register_thread` (`rpp/impl/profile.cpp:18-27`), which also
clears `during_frame`. -/
def ready (s : Thread) : Thread :=
  if s.registered then s else { s with registered := true, during := false }

/-- `begin_frame` (`rpp/impl/profile.cpp:62-86`). -/
def beginFrame (T : Traits) (root : L) (t : W) (s : Thread) : M (Frame L) (Option W × Thread) := do
  let s := ready s
  require (!s.during)
  let q ← (if s.frames.len ≠ 0 ∧ s.frames.len = s.frames.cap then Queue.pop T s.frames else pure s.frames)
  let q ← Queue.push T q {}
  onBack q (begin root t)
  let ret ← (if q.len > 1 then do
      let prev ← Queue.penultimate q
      require (prev.nodes ≠ [])
      let n ← lift (at' prev.nodes 0)
      pure (some (t - n.begin))
    else pure none)
  return (ret, { s with during := true, frames := q })

/-- `end_frame` (`rpp/impl/profile.cpp:88-101`). -/
def endFrame (t : W) (s : Thread) : M (Frame L) Thread := do
  require (s.registered && s.during)
  require (s.frames.len ≠ 0)
  onBack s.frames (finish t)
  return { s with during := false }

/-- `enter` and `exit` (`rpp/impl/profile.cpp:103-116`, `142-148`). -/
def event (e : Ev L) (s : Thread) : M (Frame L) Thread := do
  let s := ready s
  (if s.during then onBack s.frames (fun f => step f e) else pure ())
  return s

/-- The frame that `iterate_timings` shows for the thread (`rpp/profile.h:91-98`). -/
def timings (s : Thread) : M (Frame L) (Option (Frame L)) :=
  if s.during && decide (s.frames.len > 1) then do return some (← Queue.penultimate s.frames)
  else if !s.during && decide (s.frames.len ≠ 0) then do return some (← Queue.back s.frames)
  else pure none

/-- `finalize` (`rpp/profile.h:143-147`): the frames are dropped first, then an open frame is ended at
clock reading `t`. -/
def finalize (T : Traits) (t : W) (s : Thread) : M (Frame L) Thread := do
  let q ← Queue.dtor T s.frames
  let s := { s with frames := q }
  let s ← (if s.during then endFrame t s else pure s)
  return { s with registered := false }

/-- One operation of the thread. -/
def tstep (T : Traits) (root : L) (s : Thread) : Op (Ev L) → M (Frame L) Thread
  | .begin t => do return (← beginFrame T root t s).2
  | .ev e => event e s
  | .fin t => endFrame t s

/-- All operations in order. -/
def trun (T : Traits) (root : L) : Thread → List (Op (Ev L)) → M (Frame L) Thread
  | s, [] => pure s
  | s, o :: os => do
    let s ← tstep T root s o
    trun T root s os

end Rpp.Prof
