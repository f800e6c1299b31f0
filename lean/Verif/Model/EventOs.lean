import Verif.Model.Mem
import Verif.Model.Word

/-!
# `Async::Event` on macOS and Windows, `Thread::sleep`

`rpp/pos/async_bsd.cpp:52-96`, `rpp/w32/async_w32.cpp:44-81`, `rpp/pos/thread_pos.cpp:37-39`,
`rpp/w32/thread_w32.cpp:12-14`. The operating systems are modelled by their documented behaviour. Left out: failing
`pipe`, `kqueue`, `CreateEventEx` (they end the program).
-/

namespace Rpp.EventMac

/-- `Event::signal` (`rpp/pos/async_bsd.cpp:52-55`): one byte into the pipe, which holds at most `cap` bytes; the write waits
for room. `c` is the number of bytes in the pipe. -/
def signal (cap c : Nat) : Res Nat := if c < cap then .ok (c + 1) else .error .hang

/-- `Event::reset` (`rpp/pos/async_bsd.cpp:57-61`): takes one byte out; waits if there is none. -/
def reset (c : Nat) : Res Nat := if c = 0 then .error .hang else .ok (c - 1)

/-- `Event::try_wait` (`rpp/pos/async_bsd.cpp:63-65`). -/
def tryWait (_c : Nat) : Bool := false

/-- `signal` (true) and `reset` (false) in any order. -/
def runOps (cap c : Nat) : List Bool → Res Nat
  | [] => .ok c
  | b :: bs =>
    match (if b then signal cap c else reset c) with
    | .ok c' => runOps cap c' bs
    | .error e => .error e

/-- The loop filling in what to wait for (`rpp/pos/async_bsd.cpp:74-77`): there is one `struct kevent wait`, and each event
overwrites the one before. The outer `none` is the uninitialised structure. -/
def fill : Option (Option Nat) → List (Option Nat) → Option (Option Nat)
  | w, [] => w
  | _, fd :: l => fill (some fd) l

/-- `Event::wait_any` (`rpp/pos/async_bsd.cpp:67-96`). `fds` are the descriptors (`none` is −1), `ready` tells which ones have
become readable. `kevent` with one change and room for one event reports an error for the descriptor −1 and otherwise
waits until the descriptor registered is readable. -/
def waitAny (fds : List (Option Nat)) (ready : Nat → Bool) : Res Nat :=
  match fill none fds with
  | none => .error .ub
  | some none => .error .die
  | some (some fd) =>
    if ready fd then
      let i := fds.idxOf (some fd)
      if i < fds.length then .ok i else .error .die
    else .error .hang

end Rpp.EventMac

namespace Rpp.EventWin

/-- One operation on a manual-reset event (`rpp/w32/async_w32.cpp:44-58`): `SetEvent` (true), `ResetEvent` (false). -/
def op (_ : Bool) (b : Bool) : Bool := b

/-- `signal` (true) and `reset` (false) in any order. -/
def runOps (c : Bool) (bs : List Bool) : Bool := bs.foldl op c

/-- `Event::try_wait` (`rpp/w32/async_w32.cpp:60-70`): waiting with time limit zero does not change a manual-reset event. -/
def tryWait (c : Bool) : Bool := c

/-- `MAXIMUM_WAIT_OBJECTS`. -/
def maxWait : Nat := 64

/-- `Event::wait_any` (`rpp/w32/async_w32.cpp:72-81`). `hs` are the handles (`none` is null; fewer than 2^32), `ready` tells which are
signalled. `WaitForMultipleObjectsEx` fails for more than 64 handles and for a null handle; otherwise it returns the
least index that is signalled. -/
def waitAny (hs : List (Option Nat)) (ready : Nat → Bool) : Res Nat :=
  if hs = [] then .error .die
  else if maxWait < hs.length ∨ none ∈ hs then .error .die
  else match hs.findIdx? (fun h => match h with | some x => ready x | none => false) with
    | some i => .ok i
    | none => .error .hang

end Rpp.EventWin

namespace Rpp.Sleep

/-- `Thread::sleep` on Linux and macOS (`rpp/pos/thread_pos.cpp:37-39`): the microseconds `usleep` gets, `useconds_t` having 32
bits. It sleeps at least as long, unless a signal handler runs. -/
def posixMicros (ms : Nat) : Nat := wmul ms 1000 % 2 ^ 32

/-- `Thread::sleep` on Windows (`rpp/w32/thread_w32.cpp:12-14`): the milliseconds `Sleep` gets; `INFINITE` (2^32 − 1) never
returns. -/
def winMillis (ms : Nat) : Res Nat := if ms % 2 ^ 32 = 2 ^ 32 - 1 then .error .hang else .ok (ms % 2 ^ 32)

end Rpp.Sleep
