import Verif.Model.Sched

/-!
# Model: `Thread::Mutex` and `Thread::Lock`

`rpp/thread0.h:28-73`, `rpp/ref0.h:10-45`, `rpp/pos/thread_pos.cpp:197-223`, `rpp/w32/thread_w32.cpp:100-114`. Locks and mutexes have
numbers. A step is one call by one thread; a thread that would have to wait takes the step again later.
-/

namespace Rpp.Lock

/-- The thread that locked each mutex, and the `Ref<Mutex>` of each `Lock` object (`none`: no such object). -/
structure St where
  owner : Nat → Option Nat
  ref : Nat → Option (Option Nat)

/-- Before the first call. -/
def init : St := ⟨fun _ => none, fun _ => none⟩

/-- `Mutex::lock` by thread `t` (`rpp/pos/thread_pos.cpp:211-216`): waits, for ever if the thread itself holds it (a default mutex of
Linux; an `SRWLOCK`). `none`: has to wait. -/
def lock (s : St) (t m : Nat) : Res (Option St) :=
  match s.owner m with
  | none => .ok (some { s with owner := fun k => if k = m then some t else s.owner k })
  | some u => if u = t then .error .hang else .ok none

/-- `Mutex::unlock` (`rpp/pos/thread_pos.cpp:218-223`): undefined unless the thread holds it (POSIX, and `SRWLOCK`). -/
def unlock (s : St) (t m : Nat) : Res St :=
  if s.owner m = some t then .ok { s with owner := fun k => if k = m then none else s.owner k } else .error .ub

/-- The object `h` gets the value `r`. -/
def St.put (s : St) (h : Nat) (r : Option (Option Nat)) : St := { s with ref := fun k => if k = h then r else s.ref k }

/-- What can be done with `Lock` objects. -/
inductive Op where
  | make (h m : Nat)
  | moveNew (h src : Nat)
  | assign (h src : Nat)
  | drop (h : Nat)

/-- One call by thread `t`. Using an object that does not exist, or making one that does, is undefined. -/
def step (s : St) : Nat × Op → Res St
  | (t, .make h m) => -- `rpp/thread0.h:56-58`
    if s.ref h = none then
      match lock s t m with
      | .error e => .error e
      | .ok none => .ok s
      | .ok (some s') => .ok (s'.put h (some (some m)))
    else .error .ub
  | (_, .moveNew h src) => -- `rpp/thread0.h:66`, `rpp/ref0.h:23-25`
    if s.ref h = none then
      match s.ref src with
      | none => .error .ub
      | some r => .ok ((s.put h (some r)).put src (some none))
    else .error .ub
  | (_, .assign h src) => -- `rpp/thread0.h:67`, `rpp/ref0.h:26-30`
    match s.ref h, s.ref src with
    | some _, some r => .ok ((s.put h (some r)).put src (some none))
    | _, _ => .error .ub
  | (t, .drop h) => -- `rpp/thread0.h:59-61`
    match s.ref h with
    | none => .error .ub
    | some none => .ok (s.put h none)
    | some (some m) =>
      match unlock s t m with
      | .error e => .error e
      | .ok s' => .ok (s'.put h none)

end Rpp.Lock
