import Verif.Model.Mem

/-!
# Model: the descriptors and handles of `Async::Event` on the three systems

`rpp/pos/async_pos.cpp:10-46` (Linux: one eventfd), `rpp/pos/async_bsd.cpp:10-50` (macOS: the two ends of a pipe),
`rpp/w32/async_w32.cpp:11-42` (Windows: one event handle). The system gives out any number that is not in use, so numbers
come back after having been closed. The rest of the program has descriptors of its own, and may hand one to
`Event::of_sys`. Left out: the mask (it moves along with the descriptor), running out of descriptors (ends the program).
-/

namespace Rpp.EvFd

/-- The systems. -/
inductive Sys where
  | linux | mac | windows
deriving DecidableEq

/-- An event (`rpp/async.h:268-284`): `none` is −1 or null. `sig` is `signal_fd`, which only macOS has. -/
structure Ev where
  fd : Option Nat
  sig : Option Nat
deriving DecidableEq

/-- What `Event(fd, mask)` and a moved-from event have in the other fields (`rpp/async.h:272`, `276`, `281-282`). -/
def Ev.empty : Ev := ⟨none, none⟩

/-- The events alive, the numbers open in the process, those of them that the rest of the program holds, and the numbers
that were passed to `close` without being open. -/
structure St where
  objs : Nat → Option Ev
  live : List Nat
  ext : List Nat
  bad : List Nat

/-- Nothing yet. -/
def St.init : St := { objs := fun _ => none, live := [], ext := [], bad := [] }

/-- What a program does. `n` and `m` are the numbers that the system answers. `open` and `close` are by the rest of the
program. -/
inductive Op where
  | make (v n m : Nat)
  | ofSys (v n : Nat)
  | moveNew (v u : Nat)
  | assign (v u : Nat)
  | drop (v : Nat)
  | open (n : Nat)
  | close (n : Nat)
deriving DecidableEq

def set (f : Nat → Option Ev) (v : Nat) (x : Option Ev) : Nat → Option Ev := fun w => if w = v then x else f w

/-- `close` or `CloseHandle` on a number: the one open under this number goes away, whoever holds it. Linux and Windows
assert that there was one (`rpp/pos/async_pos.cpp:37-38`, `rpp/w32/async_w32.cpp:33-34`), macOS does not look
(`rpp/pos/async_bsd.cpp:41-42`). -/
def closeNum (y : Sys) (s : St) (n : Nat) : Res St :=
  if n ∈ s.live then .ok { s with live := s.live.erase n, ext := s.ext.erase n }
  else if y = .mac then .ok { s with bad := n :: s.bad }
  else .error .die

/-- Closing if it is not −1. -/
def closeOpt (y : Sys) (s : St) : Option Nat → Res St
  | some n => closeNum y s n
  | none => .ok s

/-- The destructor up to the fields (`rpp/pos/async_pos.cpp:35-39`, `rpp/pos/async_bsd.cpp:40-42`,
`rpp/w32/async_w32.cpp:30-35`). -/
def destroy (y : Sys) (s : St) (e : Ev) : Res St := do
  let s ← closeOpt y s e.fd
  closeOpt y s e.sig

/-- One operation. Operations on events that do not exist, making one that does, and answers that the system does not give
are not part of a program and ignored. Moving (`rpp/pos/async_pos.cpp:19-33`, `rpp/pos/async_bsd.cpp:20-37`,
`rpp/w32/async_w32.cpp:19-28`): the assignment runs the destructor, which also empties the fields, and then takes over. -/
def step (y : Sys) (s : St) : Op → Res St
  | .make v n m =>
    match s.objs v with
    | some _ => .ok s
    | none =>
      if n ∈ s.live then .ok s
      else if y = .mac then
        if m ∈ s.live ∨ m = n then .ok s
        else .ok { s with objs := set s.objs v (some ⟨some n, some m⟩), live := m :: n :: s.live }
      else .ok { s with objs := set s.objs v (some ⟨some n, none⟩), live := n :: s.live }
  | .ofSys v n =>
    match s.objs v with
    | some _ => .ok s
    | none => .ok { s with objs := set s.objs v (some ⟨some n, none⟩), ext := s.ext.erase n }
  | .moveNew v u =>
    match s.objs v, s.objs u with
    | none, some e => .ok { s with objs := set (set s.objs v (some e)) u (some .empty) }
    | _, _ => .ok s
  | .assign v u =>
    match s.objs v, s.objs u with
    | some old, some _ => do
      let s ← destroy y s old
      let s := { s with objs := set s.objs v (some .empty) }
      match s.objs u with
      | some e => .ok { s with objs := set (set s.objs v (some e)) u (some .empty) }
      | none => .ok s
    | _, _ => .ok s
  | .drop v =>
    match s.objs v with
    | some old => do
      let s ← destroy y s old
      .ok { s with objs := set s.objs v none }
    | none => .ok s
  | .open n => if n ∈ s.live then .ok s else .ok { s with live := n :: s.live, ext := n :: s.ext }
  | .close n => if n ∈ s.ext then .ok { s with live := s.live.erase n, ext := s.ext.erase n } else .ok s

/-- A program. -/
def runFrom (y : Sys) (s : St) : List Op → Res St
  | [] => .ok s
  | o :: os => do
    let s ← step y s o
    runFrom y s os

def run (y : Sys) (ops : List Op) : Res St := runFrom y St.init ops

end Rpp.EvFd
