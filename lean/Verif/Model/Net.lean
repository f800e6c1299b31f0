import Verif.Model.Mem
import Verif.Model.Word

/-!
# Model: objects owning a descriptor, datagrams, eventfd, timers

`rpp/pos/net_pos.cpp:28-81` (`Net::Udp`), `rpp/pos/async_pos.cpp:10-101` (`Async::Event`),
`rpp/pos/asyncio_pos.cpp:67-83` (`Async::wait`). The kernel is modelled by its documented behaviour. Left out:
addresses, `bind`, failing `socket`/`eventfd` (they end the program), descriptor numbers being reused.
-/

namespace Rpp.Fd

/-- The objects alive, each with its descriptor (`none` is −1), and the descriptors opened and closed so far, newest
first. -/
structure St where
  objs : Nat → Option (Option Nat)
  opened : List Nat
  closed : List Nat

/-- Nothing yet. -/
def St.init : St := { objs := fun _ => none, opened := [], closed := [] }

/-- What a program does with its objects. -/
inductive Op where
  | make (v : Nat)
  | moveNew (v u : Nat)
  | assign (v u : Nat)
  | drop (v : Nat)
deriving DecidableEq

def set (f : Nat → Option (Option Nat)) (v : Nat) (x : Option (Option Nat)) : Nat → Option (Option Nat) :=
  fun w => if w = v then x else f w

/-- `close(fd)` if there is one. -/
def closing (s : St) : Option Nat → St
  | some fd => { s with closed := fd :: s.closed }
  | none => s

/-- One operation. `closes` tells whether move assignment calls the destructor first: `Event` does
(`rpp/pos/async_pos.cpp:26-33`), `Udp` does not (`rpp/pos/net_pos.cpp:46-50`). Both destructors close unless −1
(`rpp/pos/net_pos.cpp:35-39`, `rpp/pos/async_pos.cpp:35-42`; the second also sets −1). Operations on objects that do
not exist, or creating one that does, are not part of a program and ignored. -/
def step (closes : Bool) (s : St) : Op → St
  | .make v =>
    match s.objs v with
    | none => { s with objs := set s.objs v (some (some s.opened.length)), opened := s.opened.length :: s.opened }
    | some _ => s
  | .moveNew v u =>
    match s.objs v, s.objs u with
    | none, some fd => { s with objs := set (set s.objs v (some fd)) u (some none) }
    | _, _ => s
  | .assign v u =>
    match s.objs v, s.objs u with
    | some old, some _ =>
      let s := if closes then { closing s old with objs := set s.objs v (some none) } else s
      match s.objs u with
      | some fd => { s with objs := set (set s.objs v (some fd)) u (some none) }
      | none => s
    | _, _ => s
  | .drop v =>
    match s.objs v with
    | some old => { closing s old with objs := set s.objs v none }
    | none => s

/-- A program. -/
def run (closes : Bool) (ops : List Op) : St := ops.foldl (step closes) St.init

end Rpp.Fd

namespace Rpp.Net

/-- `min_transmissible_unit` (`rpp/net.h:14`), the size of `Packet`. -/
def mtu : Nat := 1472

/-- What the kernel has for `recvfrom`: nothing, an error (such as `ECONNREFUSED` after a previous send), a datagram. -/
inductive Kernel where
  | wouldBlock
  | error
  | datagram (bytes : List UInt8)

/-- `recvfrom` with `MSG_DONTWAIT | MSG_TRUNC`: the buffer is filled as far as it reaches, the answer is the real
length of the datagram. `-1` for nothing or error. -/
def recvfrom (buf : List UInt8) : Kernel → Int × List UInt8
  | .wouldBlock => (-1, buf)
  | .error => (-1, buf)
  | .datagram b => (b.length, b.take buf.length ++ buf.drop b.length)

/-- `Udp::recv` (`rpp/pos/net_pos.cpp:58-71`): the length reported, and the packet. -/
def recv (buf : List UInt8) (k : Kernel) : Option Nat × List UInt8 :=
  let r := recvfrom buf k
  match k with
  | .wouldBlock => (none, r.2)
  | _ => (some (r.1 % 2 ^ 64).toNat, r.2)

/-- `Udp::send` (`rpp/pos/net_pos.cpp:73-81`): the bytes handed to the kernel. Nothing compares `length` with the size
of the packet; the kernel would read what lies behind it. -/
def send (buf : List UInt8) (length : Nat) : Res (List UInt8) :=
  if length ≤ buf.length then .ok (buf.take length) else .error .ub

end Rpp.Net

namespace Rpp.Event

/-- `Event::signal` (`rpp/pos/async_pos.cpp:48-54`) on the counter of a non-blocking eventfd: `EAGAIN` when it would
exceed 2^64 − 2. -/
def signal (c : Nat) : Res Nat := if c + 1 ≤ 2 ^ 64 - 2 then .ok (c + 1) else .error .die

/-- `Event::reset` (`rpp/pos/async_pos.cpp:56-62`): reading gives `EAGAIN` when the counter is zero. -/
def reset (c : Nat) : Res Nat := if c = 0 then .error .die else .ok 0

/-- `Event::try_wait` (`rpp/pos/async_pos.cpp:64-66`). -/
def tryWait (_c : Nat) : Bool := false

/-- `signal` and `reset` in any order. -/
def runOps (c : Nat) : List Bool → Res Nat
  | [] => .ok c
  | b :: bs =>
    match (if b then signal c else reset c) with
    | .ok c' => runOps c' bs
    | .error e => .error e

/-- The loop adding the descriptors to the epoll set (`rpp/pos/async_pos.cpp:75-83`): `EPOLL_CTL_ADD` fails for −1
and for a descriptor already there. `none` is the failure. -/
def addAll : List Nat → List (Option Nat) → Option (List Nat)
  | added, [] => some added
  | _, none :: _ => none
  | added, some fd :: l => if fd ∈ added then none else addAll (added ++ [fd]) l

/-- `Event::wait_any` (`rpp/pos/async_pos.cpp:68-101`). `fds` are the descriptors (`none` is −1), `ready` tells which
have become readable when `epoll_wait` is done waiting, `pick` is the kernel's choice among them, `intr` that a signal
handler ran meanwhile. With nothing ever ready it does not return. -/
def waitAny (fds : List (Option Nat)) (ready : Nat → Bool) (pick : Nat) (intr : Bool) : Res Nat :=
  match addAll [] fds with
  | none => .error .die
  | some added =>
    if intr then .error .die
    else
      let now := added.filter ready
      match now[pick % now.length]? with
      | none => .error .hang
      | some fd =>
        let i := fds.idxOf (some fd)
        if i < fds.length then .ok i else .error .die

end Rpp.Event

namespace Rpp.Timer

/-- `timerfd_settime` with a relative time and no interval: the nanosecond (of a clock now at `now`) at which the
descriptor becomes readable, `none` if never: a zero `it_value` disarms the timer. Seconds beyond the kernel's range are
cut to its last instant. -/
def settime (now : Nat) (sec nsec : Int) : Res (Option Nat) :=
  if 0 ≤ sec ∧ 0 ≤ nsec ∧ nsec < 1000000000 then
    if sec = 0 ∧ nsec = 0 then .ok none
    else if sec < 9223372036 then .ok (some (min (now + (sec * 1000000000 + nsec).toNat) (2 ^ 63 - 1)))
    else .ok (some (2 ^ 63 - 1))
  else .error .die

/-- `Async::wait` (`rpp/pos/asyncio_pos.cpp:67-83`): when the event it awaits is signalled. -/
def wait (now ms : Nat) : Res (Option Nat) :=
  settime now ((ms / 1000 : Nat) : Int) ((wmul (ms % 1000) 1000000 : Nat) : Int)

end Rpp.Timer
