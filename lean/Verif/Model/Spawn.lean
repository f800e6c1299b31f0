import Verif.Model.Arc
import Verif.Model.Promise

/-!
# `spawn` (`rpp/thread.h:150-169`)

The promise of `Verif.Model.Promise` lives in the `Arc` of `Verif.Model.Arc`; thread 0 is the one started,
thread 1 the one that called `spawn`, the others may be given handles. The function called is a value `v`
that thread 0 will fill in. Any use of the promise after it was destroyed or its memory freed is undefined.

`detach` (`rpp/thread.h:129-133`) has no effect on the threads. The closure is allocated with the default
allocator whatever the allocator of `spawn` (`Thread thread{…}` deduces it), which is not visible here.
-/

namespace Rpp
namespace Spawn

/-- Where thread 0 is in `invoke` (`rpp/thread.h:138-145`): in `(*f)()`; in `f->~F()`, which drops the handle
captured; after `A::free(f)`. -/
inductive WPc where
  | call | dtor | ended
  deriving DecidableEq, Repr

/-- The handles, the promise, thread 0, and how often the closure was destroyed and its memory freed. -/
structure St where
  arc : Arc.St
  pr : Promise.St
  w : WPc
  dtors : Nat
  frees : Nat
  deriving DecidableEq, Repr

/-- What happens next. Thread `t` calls `block` or `ready`, duplicates, drops or gives away a handle; goes on
with what it does; or is woken for no reason. -/
inductive Ev where
  | block (t : Nat)
  | ready (t : Nat)
  | dup (t : Nat)
  | drop (t : Nat)
  | give (t u : Nat)
  | go (t : Nat)
  | spurious (t : Nat)
  deriving DecidableEq, Repr

/-- After `make`, `dup` and the start of the thread: thread 0 has the handle in its closure, thread 1 the one
`spawn` returns (`rpp/thread.h:155-168`). There are `n` more threads. -/
def St.init (n v : Nat) : St :=
  ⟨⟨2, true, true, 0, 0, ⟨1, .idle⟩ :: ⟨1, .idle⟩ :: List.replicate n ⟨0, .idle⟩⟩,
   Promise.St.init (n + 1) v, .call, 0, 0⟩

/-- Thread `t` is inside an operation on the promise. -/
def busy (s : St) (t : Nat) : Bool :=
  match s.pr.role[t]? with
  | some .out | some .done | none => false
  | _ => true

/-- Thread `t` holds a handle and is not in the middle of dropping one. -/
def holds (s : St) (t : Nat) : Bool :=
  match s.arc.thr[t]? with
  | some ⟨_ + 1, .idle⟩ => true
  | _ => false

/-- A step on the promise. -/
def onPromise (plain : Bool) (s : St) (e : Promise.Ev) : Res St :=
  if s.arc.mem ∧ s.arc.alive then do
    let p ← Promise.step plain s.pr e
    .ok { s with pr := p }
  else .error .ub

/-- A step on the handles. -/
def onArc (s : St) (e : Arc.Ev) : Res St := do
  let a ← Arc.step s.arc e
  .ok { s with arc := a }

/-- One step. -/
def step (plain : Bool) (s : St) : Ev → Res St
  | .block t => if t ≠ 0 ∧ holds s t ∧ ¬ busy s t then onPromise plain s (.block t) else .ok s
  | .ready t =>
    if t ≠ 0 ∧ holds s t ∧ ¬ busy s t then
      if s.arc.mem ∧ s.arc.alive then .ok s else .error .ub
    else .ok s
  | .dup t => if t ≠ 0 ∧ ¬ busy s t then onArc s (.dup t) else .ok s
  | .drop t => if t ≠ 0 ∧ ¬ busy s t then onArc s (.drop t) else .ok s
  | .give t u => if t ≠ 0 ∧ u ≠ 0 ∧ ¬ busy s t then onArc s (.give t u) else .ok s
  | .spurious t => if busy s t then onPromise plain s (.spurious t) else .ok s
  | .go t =>
    if busy s t then onPromise plain s (.go t)
    else if t = 0 then
      match s.w with
      -- `(*f)()` returned; `f->~F()` begins
      | .call => do
        let s ← onArc s (.drop 0)
        .ok { s with w := .dtor, dtors := s.dtors + 1 }
      | .dtor =>
        if (s.arc.thr[0]?).map Arc.Thr.pc = some .idle then
          -- `A::free(f)`
          .ok { s with w := .ended, frees := s.frees + 1 }
        else onArc s (.go 0)
      | .ended => .ok s
    else onArc s (.go t)

end Spawn
end Rpp
