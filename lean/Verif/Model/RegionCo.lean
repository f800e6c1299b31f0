import Verif.Model.Region

/-!
# Regions in coroutines

The state of the region allocator is `thread_local` (`rpp/impl/alloc.cpp:29-33`), and `Region_Allocator::Scope`
begins and ends a region on the thread that runs its constructor and its destructor (`rpp/alloc0.h:66-82`).
A coroutine runs on one thread until it suspends and is continued by whatever thread takes it from a
queue of the pool (`rpp/pool.h:16-28`, 107-150); on the same thread other coroutines run in between.

Between two suspensions nothing else runs on the thread, and other threads have other states, so that a
stretch of a coroutine can be taken as one step.
-/

namespace Rpp.RegionCo

/-- What a coroutine does with regions. -/
inductive Act where
  /-- `Scope<R>()` (`rpp/alloc0.h:69-71`) -/
  | begin (brand : Nat)
  /-- `Mregion<R>::alloc(n)` (`rpp/alloc0.h:100-102`) -/
  | alloc (brand n : Nat)
  /-- `~Scope<R>()` (`rpp/alloc0.h:72-74`) -/
  | fin (brand : Nat)
  deriving DecidableEq, Repr

/-- One action on the thread's state; the chunk and the offset of the memory handed out. -/
def act (lim : Nat) (s : Reg) : Act → Res (Reg × List (Nat × Nat))
  | .begin b => (s.begin b).map (·, [])
  | .alloc b n => (s.alloc lim b n).map (fun r => (r.1, [r.2]))
  | .fin b => (s.end' b).map (·, [])

/-- A stretch of a coroutine between two suspensions. -/
def stretch (lim : Nat) : Reg → List Act → Res (Reg × List (Nat × Nat))
  | s, [] => .ok (s, [])
  | s, a :: as =>
    match act lim s a with
    | .error e => .error e
    | .ok (s, out) =>
      match stretch lim s as with
      | .error e => .error e
      | .ok (s, out') => .ok (s, out ++ out')

/-- The threads' states and what is left of each coroutine. -/
structure Sys where
  thread : Nat → Reg
  cos : List (List (List Act))

/-- At the start. -/
def Sys.init (cos : List (List (List Act))) : Sys := ⟨fun _ => Reg.init, cos⟩

/-- Thread `t` takes up coroutine `i` and runs it until it suspends or ends; a coroutine that has ended is not
in any queue, and asking for it is no step. -/
def step (lim : Nat) (s : Sys) (t i : Nat) : Res (Sys × List (Nat × Nat)) :=
  match s.cos[i]? with
  | some (seg :: segs) =>
    match stretch lim (s.thread t) seg with
    | .error e => .error e
    | .ok (r, out) => .ok (⟨fun u => if u = t then r else s.thread u, s.cos.set i segs⟩, out)
  | _ => .ok (s, [])

/-- A schedule: which thread takes up which coroutine. -/
def run (lim : Nat) : Sys → List (Nat × Nat) → Res (Sys × List (Nat × Nat))
  | s, [] => .ok (s, [])
  | s, (t, i) :: es =>
    match step lim s t i with
    | .error e => .error e
    | .ok (s, out) =>
      match run lim s es with
      | .error e => .error e
      | .ok (s, out') => .ok (s, out ++ out')

end Rpp.RegionCo
