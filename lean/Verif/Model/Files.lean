import Verif.Model.Mem
import Verif.Model.Word
import Verif.Spec.Files

/-!
# Model: file access (POSIX) and the write watcher

`rpp/pos/files_pos.cpp`, `rpp/pos/asyncio_pos.cpp:15-65` (`rpp/pos/asyncio_bsd.cpp:13-63` has the same text), `rpp/files.h:19-47`. The kernel is modelled by its
documented behaviour: `open`, `lseek`, `read`, `write`, `close` on a table of descriptors, where the kernel's free
choices are an arbitrary input `Ans`. Left out: paths are opaque (termination, permissions and directories appear only
as the choice whether `open` succeeds), log output, other processes changing the file during a call, descriptor
numbers being reused, failure of `close`.
-/

namespace Rpp.Files

/-- A file. `size` is the answer of `lseek(fd, 0, SEEK_END)`: the number of bytes for a regular file, `-1` for a pipe,
`0` for many files in /proc. -/
structure File where
  bytes : List UInt8
  size : Int
  mode : Nat
deriving DecidableEq

/-- An open descriptor. -/
structure Desc (P : Type) where
  path : P
  rd : Bool
  wr : Bool
  pos : Nat
deriving DecidableEq

/-- Files and open descriptors of the process. -/
structure World (P : Type) where
  files : P → Option File
  fds : List (Nat × Desc P)
  next : Nat

/-- The kernel's choices during one call: does `open` succeed, what permissions does a new file get if the program
does not say, how much does `read`/`write` transfer (`none`: it fails, e.g. `EINTR`, `EIO`, `ENOSPC`). -/
structure Ans where
  opens : Bool
  mode : Nat
  count : Option Nat

variable {P : Type} [DecidableEq P]

/-- Replaces a file. -/
def setFile (w : World P) (p : P) (f : File) : World P :=
  { w with files := fun q => if q = p then some f else w.files q }

/-- A new descriptor. -/
def newFd (w : World P) (d : Desc P) : Nat × World P :=
  (w.next, { w with fds := (w.next, d) :: w.fds, next := w.next + 1 })

/-- `open(2)` with `O_RDONLY`. -/
def openRd (w : World P) (p : P) (a : Ans) : Option Nat × World P :=
  match w.files p with
  | none => (none, w)
  | some _ =>
    if a.opens then
      let r := newFd w { path := p, rd := true, wr := false, pos := 0 }
      (some r.1, r.2)
    else (none, w)

/-- `open(2)` with `O_WRONLY | O_CREAT | O_TRUNC` and no third argument: the permissions of a new file are whatever
is found in the argument's place. -/
def openCreate (w : World P) (p : P) (a : Ans) : Option Nat × World P :=
  if a.opens then
    let mode := match w.files p with
      | some f => f.mode
      | none => a.mode
    let r := newFd (setFile w p { bytes := [], size := 0, mode := mode }) { path := p, rd := false, wr := true, pos := 0 }
    (some r.1, r.2)
  else (none, w)

/-- How much a transfer of `n` possible bytes moves: at least one if there is one (a regular file never gives
zero early), never more than possible. -/
def amount (c n : Nat) : Nat := if n = 0 then 0 else 1 + c % n

/-- `read(2)`: the bytes read, or an error. -/
def sysRead (w : World P) (fd n : Nat) (a : Ans) : Option (List UInt8) :=
  match w.fds.lookup fd with
  | none => none
  | some d =>
    if d.rd then
      match w.files d.path, a.count with
      | some f, some c => some ((f.bytes.drop d.pos).take (amount c (min n (f.bytes.length - d.pos))))
      | _, _ => none
    else none

/-- `write(2)`: a descriptor not open for writing gives `EBADF`. -/
def sysWrite (w : World P) (fd : Nat) (data : List UInt8) (a : Ans) : Option Nat × World P :=
  match w.fds.lookup fd with
  | none => (none, w)
  | some d =>
    if d.wr then
      match w.files d.path, a.count with
      | some f, some c =>
        let k := amount c data.length
        let b := f.bytes.take d.pos ++ data.take k ++ f.bytes.drop (d.pos + k)
        (some k, setFile w d.path { f with bytes := b, size := b.length })
      | _, _ => (none, w)
    else (none, w)

/-- `close(2)`. -/
def sysClose (w : World P) (fd : Nat) : World P := { w with fds := w.fds.filter (·.1 ≠ fd) }

/-- Size answered by `lseek`. -/
def sysSize (w : World P) (p : P) : Int :=
  match w.files p with
  | some f => f.size
  | none => -1

/-- `Files::read` (`rpp/pos/files_pos.cpp:10-38`); `Async::read` is the same code
(`rpp/pos/asyncio_pos.cpp:15-43`). `lim` is the largest block malloc provides. The vector is filled with zeros before
the bytes are read into it (`rpp/vec.h:144-156`). -/
def read (lim : Nat) (w : World P) (p : P) (a : Ans) : Res (Option (List UInt8) × World P) :=
  match openRd w p a with
  | (none, w) => .ok (none, w)
  | (some fd, w) =>
    let full := sysSize w p
    if full ≤ 0xffffffff then
      let n := (full % 2 ^ 64).toNat
      if n ≤ lim then
        match sysRead w fd n a with
        | none => .ok (none, w)
        | some b => .ok (some (b ++ List.replicate (n - b.length) 0), sysClose w fd)
      else .error .oom
    else .error .die

/-- `Files::write` (`rpp/pos/files_pos.cpp:40-60`). -/
def write (w : World P) (p : P) (data : List UInt8) (a : Ans) : Bool × World P :=
  match openRd w p a with
  | (none, w) => (false, w)
  | (some fd, w) =>
    match sysWrite w fd data a with
    | (none, w) => (false, w)
    | (some _, w) => (true, sysClose w fd)

/-- `Async::write` (`rpp/pos/asyncio_pos.cpp:45-65`). -/
def asyncWrite (w : World P) (p : P) (data : List UInt8) (a : Ans) : Bool × World P :=
  match openCreate w p a with
  | (none, w) => (false, w)
  | (some fd, w) =>
    match sysWrite w fd data a with
    | (none, w) => (false, w)
    | (some _, w) => (true, sysClose w fd)

/-- `File_Time` of a time stamp: the cast to `u64` (`rpp/pos/files_pos.cpp:71`). -/
def fileTime (t : Int) : Nat := (t % 2 ^ 64).toNat

/-- `Write_Watcher`'s constructor (`rpp/files.h:21-25`) for a nonempty path; `obs` is `st_mtime` (whole seconds), or
`none` if `stat` fails. The state is `last_write_time_`. -/
def watch (obs : Option Int) : Nat :=
  match obs with
  | some t => fileTime t
  | none => 0

/-- `Write_Watcher::poll` (`rpp/files.h:35-42`) with `before` (`rpp/pos/files_pos.cpp:75-77`). -/
def poll (last : Nat) (obs : Option Int) : Bool × Nat :=
  match obs with
  | some t => (decide (last < fileTime t), fileTime t)
  | none => (false, last)

/-- Successive polls. -/
def polls : Nat → List (Option Int) → List Bool
  | _, [] => []
  | last, o :: obs => let r := poll last o; r.1 :: polls r.2 obs

end Rpp.Files
