import Verif.Model.Sched

/-!
# `Thread` handles (`rpp/thread.h:91-148`, `rpp/pos/thread_pos.cpp:301-326`)

One thread runs a program over variables of type `Thread`; the threads it starts run and end on their own. A
`join` waits: in a schedule the operation stays where it is until the thread has ended.

`pthread_create`, `pthread_join` and `pthread_detach` are taken to succeed on threads they may be used on; a
second join or detach of the same thread, or one after the other, is undefined (POSIX). No thread joins
itself (`rpp/pos/thread_pos.cpp:303` asserts this).
-/

namespace Rpp
namespace Thr

/-- Whom a thread belongs to in the operating system. -/
inductive Own where
  | joinable | joined | detached
  deriving DecidableEq, Repr

/-- A thread and its closure: has it ended (`invoke` ran the closure, destroyed and freed it,
`rpp/thread.h:138-145`), and has it been joined or detached? -/
structure Os where
  ended : Bool
  own : Own
  deriving DecidableEq, Repr

/-- The variables (`none`: destroyed; null or the number of a thread, `rpp/thread.h:136`) and the threads. -/
structure St where
  vars : List (Option (Option Nat))
  os : List Os
  deriving DecidableEq, Repr

/-- What happens next: a thread ends, or the program does something. -/
inductive Ev where
  | fin (i : Nat)
  /-- `Thread t;` -/
  | null
  /-- `Thread t{f};` -/
  | start
  /-- `Thread t = move(v);` -/
  | move (v : Nat)
  /-- `v = move(w);` -/
  | assign (v w : Nat)
  /-- `v.join();` -/
  | join (v : Nat)
  /-- `v.detach();` -/
  | detach (v : Nat)
  /-- The end of the scope of a variable. -/
  | leave (v : Nat)
  deriving DecidableEq, Repr

/-- Nothing yet. -/
def St.init : St := ⟨[], []⟩

/-- A variable in scope. -/
def St.get (s : St) (v : Nat) : Res (Option Nat) :=
  match s.vars[v]? with
  | some (some h) => .ok h
  | _ => .error .ub

/-- `sys_join` (`rpp/pos/thread_pos.cpp:301-308`) of thread `i`: `none` as long as it runs. -/
def sysJoin (s : St) (i : Nat) : Res (Option St) :=
  match s.os[i]? with
  | some ⟨e, .joinable⟩ => .ok (if e then some { s with os := s.os.set i ⟨e, .joined⟩ } else none)
  | _ => .error .ub

/-- `sys_detach` (`rpp/pos/thread_pos.cpp:310-316`). -/
def sysDetach (s : St) (i : Nat) : Res St :=
  match s.os[i]? with
  | some ⟨e, .joinable⟩ => .ok { s with os := s.os.set i ⟨e, .detached⟩ }
  | _ => .error .ub

/-- `~Thread()` and `join()` of variable `v` holding `h` (`rpp/thread.h:102-104`, 124-128): `none` when it has
to wait. -/
def dtor (s : St) (v : Nat) (h : Option Nat) : Res (Option St) :=
  match h with
  | none => .ok (some s)
  | some i => do
    match ← sysJoin s i with
    | none => .ok none
    | some s => .ok (some { s with vars := s.vars.set v (some none) })

/-- One step. -/
def step (s : St) : Ev → Res St
  | .fin i => match s.os[i]? with
    | some o => .ok { s with os := s.os.set i { o with ended := true } }
    | none => .ok s
  | .null => .ok { s with vars := s.vars ++ [some none] }
  -- constructor (`rpp/thread.h:96-101`)
  | .start => .ok ⟨s.vars ++ [some (some s.os.length)], s.os ++ [⟨false, .joinable⟩]⟩
  -- move constructor (`rpp/thread.h:109-112`)
  | .move v => do
    let h ← s.get v
    .ok { s with vars := s.vars.set v (some none) ++ [some h] }
  -- move assignment (`rpp/thread.h:113-118`)
  | .assign v w => do
    let h ← s.get v
    let _ ← s.get w
    match ← dtor s v h with
    | none => .ok s
    | some s =>
      let g ← s.get w
      .ok { s with vars := (s.vars.set v (some g)).set w (some none) }
  -- `join` (`rpp/thread.h:124-128`)
  | .join v => do
    match ← s.get v with
    | none => .error .die
    | some i => match ← dtor s v (some i) with
      | none => .ok s
      | some s => .ok s
  -- `detach` (`rpp/thread.h:129-133`)
  | .detach v => do
    match ← s.get v with
    | none => .error .die
    | some i =>
      let s ← sysDetach s i
      .ok { s with vars := s.vars.set v (some none) }
  -- destructor (`rpp/thread.h:102-104`)
  | .leave v => do
    let h ← s.get v
    match ← dtor s v h with
    | none => .ok s
    | some s => .ok { s with vars := s.vars.set v none }

end Thr
end Rpp
