import Verif.Model.Flag

/-!
# `Thread::Promise` and `spawn` (`rpp/thread.h:30-57`, `rpp/thread.h:150-169`)

Thread 0 fills the promise once, as the thread made by `spawn` does; the other threads may call `block`.
The flag is the one of `Verif.Model.Flag`, used through its events. Reading the slot while it is being
written would be a data race: it shows here as a read of an unfilled slot. How the value is left when it
is moved out depends on its type: plain data stays, an owning type is emptied.
-/

namespace Rpp
namespace Promise

/-- The slot `value`. -/
inductive Slot where
  | unset
  | full (v : Nat)
  | moved
  deriving DecidableEq, Repr

/-- Where a thread is: outside; about to store the value; about to signal; in `signal`; in `block`, waiting
for the flag; about to move the value out; done. -/
inductive Role where
  | out | store (v : Nat) | signal | signalling | blocking | take | done
  deriving DecidableEq, Repr

/-- The flag, the slot, the threads, and what `block` returned, in order. -/
structure St where
  flag : Flag.St
  slot : Slot
  role : List Role
  got : List Slot
  deriving DecidableEq, Repr

/-- What happens next: thread `t` calls `block`; it goes on; it is woken for no reason. -/
inductive Ev where
  | block (t : Nat)
  | go (t : Nat)
  | spurious (t : Nat)
  deriving DecidableEq, Repr

/-- A promise to be filled with `v` by thread 0, and `n` other threads. -/
def St.init (n v : Nat) : St :=
  ⟨Flag.St.init (n + 1), .unset, .store v :: List.replicate n .out, []⟩

/-- One step. `plain` tells whether moving out of the value leaves it as it is. -/
def step (plain : Bool) (s : St) : Ev → Res St
  | .block t =>
    -- `flag.block()` (`rpp/thread.h:44`)
    if s.role[t]? = some .out ∨ (t ≠ 0 ∧ s.role[t]? = some .done) then do
      let f ← Flag.step s.flag (.block t)
      .ok { s with flag := f, role := s.role.set t .blocking }
    else .ok s
  | .spurious t => do
    let f ← Flag.step s.flag (.spurious t)
    .ok { s with flag := f }
  | .go t => match s.role[t]? with
    -- `value = move(val)` (`rpp/thread.h:39`)
    | some (.store v) => .ok { s with slot := .full v, role := s.role.set t .signal }
    -- `flag.signal()` (`rpp/thread.h:40`)
    | some .signal => do
      let f ← Flag.step s.flag (.signal t)
      .ok { s with flag := f, role := s.role.set t .signalling }
    | some .signalling => do
      let f ← Flag.step s.flag (.go t)
      .ok { s with flag := f, role := s.role.set t .done }
    | some .blocking => do
      let f ← Flag.step s.flag (.go t)
      .ok { s with flag := f, role := s.role.set t (if f.thr[t]? = some .idle then .take else .blocking) }
    -- `return move(value)` (`rpp/thread.h:45`)
    | some .take =>
      .ok { s with
        got := s.got ++ [s.slot]
        slot := if plain then s.slot else .moved
        role := s.role.set t .done }
    | _ => .ok s

end Promise
end Rpp
