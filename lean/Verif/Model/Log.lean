import Verif.Model.Map
import Verif.Model.Word
import Verif.Spec.Log

/-!
# Model: log subscribers

`rpp/impl/log.cpp:23-43, 126-193`. The three functions hold one lock from start to end, so their calls
happen one after the other. `C` is the type of callbacks; `again c` tells that callback `c` itself uses the log:
the lock is not recursive, so that call never returns. Formatting and the log file are left out. `H` is
`hash_nonzero` on tokens; the table is the one of `Verif.Model.Map`.
-/

namespace Rpp.Log

open Rpp.Spec.Log (Op Out)

/-- `Static_Data` (`rpp/impl/log.cpp:23-41`). -/
structure St (C : Type) where
  next : Nat := 1
  callbacks : Map Nat C := Map.nil

variable {C M : Type}

/-- The loop over the callbacks (`rpp/impl/log.cpp:158-160`). -/
def deliver (again : C → Bool) (m : M) : List (Nat × C) → Res (List (C × M))
  | [] => .ok []
  | (_, c) :: l =>
    if again c then .error .hang
    else match deliver again m l with
      | .ok r => .ok ((c, m) :: r)
      | .error e => .error e

/-- `output` (`rpp/impl/log.cpp:126-168`). -/
def output (again : C → Bool) (m : M) (s : St C) : Res (List (C × M)) :=
  match s.callbacks.iter with
  | .ok l => deliver again m l
  | .error e => .error e

/-- A failed check inside the lock: `die` logs its message first (`rpp/log.h:22-24`), `output` takes the
lock again (`rpp/impl/log.cpp:150`), and the mutex is a default, non-recursive one
(`rpp/pos/thread_pos.cpp:197-202`): the thread waits for itself. -/
def inLock : Err → Err
  | .die => .hang
  | e => e

/-- `subscribe` (`rpp/impl/log.cpp:179-185`). -/
def subscribe (H : Nat → Nat) (lim : Nat) (c : C) (s : St C) : Res (Nat × St C) :=
  match s.callbacks.insert H lim s.next c with
  | .ok (m, _) => .ok (s.next, { next := wadd s.next 1, callbacks := m })
  | .error e => .error (inLock e)

/-- `unsubscribe` (`rpp/impl/log.cpp:187-193`); the destructor leaves the map as if default constructed
(`rpp/map.h:125-137`). -/
def unsubscribe (H : Nat → Nat) (t : Nat) (s : St C) : Res (St C) :=
  match s.callbacks.erase H t with
  | .ok m => .ok { s with callbacks := if m.isEmpty then Map.nil else m }
  | .error e => .error (inLock e)

/-- One operation. -/
def step (H : Nat → Nat) (lim : Nat) (again : C → Bool) (s : St C) : Op C M → Res (Out C M × St C)
  | .subscribe c =>
    match subscribe H lim c s with
    | .ok (t, s') => .ok (.token t, s')
    | .error e => .error e
  | .unsubscribe t =>
    match unsubscribe H t s with
    | .ok s' => .ok (.done, s')
    | .error e => .error e
  | .message m =>
    match output again m s with
    | .ok l => .ok (.calls l, s)
    | .error e => .error e

/-- A program: what it sees until it ends or fails. -/
def run (H : Nat → Nat) (lim : Nat) (again : C → Bool) : St C → List (Op C M) → List (Out C M) × Option Err
  | _, [] => ([], none)
  | s, op :: ops =>
    match step H lim again s op with
    | .ok (o, s') => let r := run H lim again s' ops; (o :: r.1, r.2)
    | .error e => ([], some e)

end Rpp.Log
