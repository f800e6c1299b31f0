import Verif.Model.Net
import Verif.Model.Str

/-!
# Model: `Net::Udp` on Windows, `Net::Address` on both systems

`rpp/w32/net_w32.cpp`, `rpp/pos/net_pos.cpp:10-26`. The ownership of the socket is as on POSIX: `rpp/w32/net_w32.cpp:92-108`
has the same destructor and moves as `rpp/pos/net_pos.cpp:35-50` (`Fd.step false`, C67). The kernel is modelled by its
documented behaviour; `inet_pton` is a parameter that gets the text up to the zero byte.
-/

namespace Rpp.NetWin
open Rpp.Net

/-- `recvfrom` of Winsock on a non-blocking socket: for a datagram that does not fit the buffer is filled and the
answer is `SOCKET_ERROR` (`WSAEMSGSIZE`); the rest of the datagram is discarded. -/
def recvfrom (buf : List UInt8) : Kernel → Int × List UInt8
  | .wouldBlock => (-1, buf)
  | .error => (-1, buf)
  | .datagram b => (if b.length ≤ buf.length then b.length else -1, b.take buf.length ++ buf.drop b.length)

/-- `Udp::recv` (`rpp/w32/net_w32.cpp:118-133`). -/
def recv (buf : List UInt8) (k : Kernel) : Option Nat × List UInt8 :=
  let r := recvfrom buf k
  if r.1 = -1 then (none, r.2) else (some (r.1 % 2 ^ 64).toNat, r.2)

/-- `static_cast<i32>` of a `u64` (`rpp/w32/net_w32.cpp:138`). -/
def toI32 (n : Nat) : Int := ((n : Int) + 2 ^ 31) % 2 ^ 32 - 2 ^ 31

/-- `Udp::send` (`rpp/w32/net_w32.cpp:135-144`): the bytes handed to the kernel, which either takes all of them (`ok`) or
reports an error; the result is the answer as `u64`. A negative length is an error. -/
def send (buf : List UInt8) (length : Nat) (ok : Bool) : Res (Option (List UInt8) × Nat) :=
  let n := toI32 length
  if n < 0 then .ok (none, ((-1 : Int) % 2 ^ 64).toNat)
  else if n.toNat ≤ buf.length then
    if ok then .ok (some (buf.take n.toNat), n.toNat) else .ok (none, ((-1 : Int) % 2 ^ 64).toNat)
  else .error .ub

/-- The usual loop of a program, `while(auto data = udp.recv(packet)) { ... packet[0 .. data->length] ... }`, for what
the kernel has in turn: the payloads it sees. -/
def poll (recv : List UInt8 → Kernel → Option Nat × List UInt8) (buf : List UInt8) : List Kernel → List (List UInt8)
  | [] => []
  | k :: ks =>
    match recv buf k with
    | (some n, buf) => buf.take n :: poll recv buf ks
    | (none, _) => []

end Rpp.NetWin

namespace Rpp.Address

/-- What `inet_pton` reads (`rpp/pos/net_pos.cpp:15`): the bytes from `i` to the first zero byte, `fuel` bytes left. -/
def cstr (v : View) : Nat → Nat → Res (List Byte)
  | 0, _ => .error .ub
  | fuel + 1, i => do
    let b ← v.raw i
    if b = 0#8 then return []
    let r ← cstr v fuel (i + 1)
    return b :: r

/-- The text `inet_pton` finds at a pointer (`rpp/pos/net_pos.cpp:15`, `rpp/w32/net_w32.cpp:59`): it ends at a zero byte or leaves
the block. -/
def text (v : View) : Res (List Byte) := cstr v (v.mem.length + 1) 0

/-- `Address::Address(String_View, u16)` on POSIX (`rpp/pos/net_pos.cpp:10-19`): reads at `address.data()`, whatever the length
of the view; ends the program if that is not an address. -/
def posix {A : Type} (pton : List Byte → Option A) (v : View) : Res A := do
  let t ← text v
  match pton t with
  | some a => return a
  | none => .error .die

/-- `Address::Address(String_View, u16)` on Windows (`rpp/w32/net_w32.cpp:50-69`): reads a terminated copy; what is not an address
becomes the zero address, with a warning. -/
def windows {A : Type} (pton : List Byte → Option A) (zero : A) (v : View) : Res A := do
  let s ← Str.terminate v
  let bs ← match (s.buf.take s.len).mapM (fun x => x) with
    | some bs => (.ok bs : Res (List Byte))
    | none => .error .ub
  let t ← text (View.of bs)
  match pton t with
  | some a => return a
  | none => return zero

/-- One number of a dotted quad, for the examples: one to three digits, no leading zero, at most 255. -/
def octet (l : List Byte) : Option Nat :=
  let n := l.foldl (fun n b => 10 * n + (b.toNat - 48)) 0
  if l.length ∈ [1, 2, 3] ∧ (∀ b ∈ l, 48 ≤ b.toNat ∧ b.toNat ≤ 57) ∧ (l.head? = some (ch '0') → l.length = 1) ∧ n ≤ 255
  then some n else none

/-- The dotted quads of `inet_pton` (POSIX), called at `rpp/pos/net_pos.cpp:15`, for the examples. -/
def quad (l : List Byte) : Option (List Nat) :=
  let parts := l.splitOn (ch '.')
  if parts.length = 4 then parts.mapM octet else none

end Rpp.Address
