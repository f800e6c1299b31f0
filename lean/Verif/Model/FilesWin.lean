import Verif.Model.Mem
import Verif.Model.Math
import Verif.Spec.Files

/-!
# Model: file access, asynchronous file access and timers (Windows)

`rpp/w32/files_w32.cpp:37-100`, `rpp/w32/asyncio_w32.cpp:9-150`. The system is modelled by its documented behaviour
on a table of open handles; its free choices are an arbitrary input `Ans`. Left out: conversion of the path (its
failure appears as `opens = false`: both return before anything is opened), log output, other processes changing the
file during a call, handle numbers being reused.
-/

namespace Rpp.FilesWin

/-- Files and open handles of the process. -/
structure World (P : Type) where
  files : P → Option (List UInt8)
  handles : List Nat
  next : Nat

/-- How `ReadFile`/`WriteFile` with an `OVERLAPPED` structure returns: `TRUE`, the transfer being complete; `FALSE` with
`ERROR_IO_PENDING`; `FALSE` with another error. -/
inductive Start where
  | done
  | pending
  | failed
deriving DecidableEq

/-- The system's choices during one call: is the file opened, is its size told, is an event created, how does an
overlapped transfer start, how much is transferred (`none`: the transfer fails), can the file pointer be moved, can the
file be cut. `strict`: a transfer without `OVERLAPPED` writes the number of bytes through its fourth argument without
looking whether that is null. The documentation allows a null there only with `OVERLAPPED`. -/
structure Ans where
  opens : Bool := true
  sizes : Bool := true
  events : Bool := true
  start : Start := .pending
  count : Option Nat
  seeks : Bool := true
  cuts : Bool := true
  strict : Bool := false

variable {P : Type} [DecidableEq P]

/-- Replaces the bytes of a file. -/
def setFile (w : World P) (p : P) (b : List UInt8) : World P :=
  { w with files := fun q => if q = p then some b else w.files q }

/-- A new handle. -/
def newHandle (w : World P) : Nat × World P :=
  (w.next, { w with handles := w.next :: w.handles, next := w.next + 1 })

/-- `CloseHandle`; closing what is not open is an error of the program. -/
def closeHandle (w : World P) (h : Nat) : Res (World P) :=
  if h ∈ w.handles then .ok { w with handles := w.handles.erase h } else .error .ub

/-- `CreateFileW` with `OPEN_EXISTING`. -/
def openExisting (w : World P) (p : P) (a : Ans) : Option (Nat × List UInt8 × World P) :=
  match w.files p with
  | none => none
  | some b => if a.opens then some ((newHandle w).1, b, (newHandle w).2) else none

/-- `CreateFileW` with `CREATE_ALWAYS`: the file is empty afterwards. -/
def createAlways (w : World P) (p : P) (a : Ans) : Option (Nat × World P) :=
  if a.opens then some (newHandle (setFile w p [])) else none

/-- A buffer of `n` zeros after at most `k` bytes of the file were read into it. -/
def filled (n k : Nat) (bytes : List UInt8) : List UInt8 :=
  let b := bytes.take (min n k)
  b ++ List.replicate (n - b.length) 0

/-- `Files::read` (`rpp/w32/files_w32.cpp:37-73`). `lim` is the largest block malloc provides; the vector is filled with
zeros first (`rpp/vec.h:144-156`). When the size is not told the handle is not closed (53-56). The number of bytes
read is not asked for (64). -/
def read (lim : Nat) (w : World P) (p : P) (a : Ans) : Res (Option (List UInt8) × World P) :=
  match openExisting w p a with
  | none => .ok (none, w)
  | some (h, bytes, w) =>
    if a.sizes then
      let size := bytes.length
      if size ≤ 0xffffffff then
        if size ≤ lim then
          if a.strict then .error .ub
          else
            match a.count with
            | none => do let w ← closeHandle w h; .ok (none, w)
            | some k => do let w ← closeHandle w h; .ok (some (filled size k bytes), w)
        else .error .oom
      else .error .die
    else .ok (none, w)

/-- `Files::write` (`rpp/w32/files_w32.cpp:75-100`). The length is checked after the old file is gone (90). -/
def write (w : World P) (p : P) (data : List UInt8) (a : Ans) : Res (Bool × World P) :=
  match createAlways w p a with
  | none => .ok (false, w)
  | some (h, w) =>
    if data.length ≤ 0xffffffff then
      if a.strict then .error .ub
      else
        match a.count with
        | none => do let w ← closeHandle w h; .ok (false, w)
        | some k => do let w ← closeHandle (setFile w p (data.take k)) h; .ok (true, w)
    else .error .die

/-- `SECTOR_SIZE` (`rpp/w32/asyncio_w32.cpp:9`). -/
def sector : Nat := 4096

/-- `Math::align_pow2(size, SECTOR_SIZE)` (`rpp/math.h:160-162`, `rpp/w32/asyncio_w32.cpp:35,94`). -/
def alignSector (n : Nat) : Nat := Math.align_pow2 64 n sector

/-- `Async::read` (`rpp/w32/asyncio_w32.cpp:11-65`). The task waits for the event, which the pool closes when it is
signalled (60; `Event::of_sys` takes the handle, `rpp/w32/async_w32.cpp:39-42`). Neither the result nor the amount
of the transfer is asked for; a transfer complete at once is taken for a failure (53). The block from malloc need not
be aligned as the unbuffered file demands: then the transfer fails to start. -/
def asyncRead (lim : Nat) (w : World P) (p : P) (a : Ans) : Res (Option (List UInt8) × World P) :=
  match openExisting w p a with
  | none => .ok (none, w)
  | some (h, bytes, w) =>
    if a.sizes then
      let size := bytes.length
      let aligned := alignSector size
      if aligned ≤ 0xffffffff then
        if aligned ≤ lim then
          if a.events then
            let (e, w) := newHandle w
            match a.start with
            | .pending => do
              let buf := filled aligned (a.count.getD 0) bytes
              let w ← closeHandle w e
              let w ← closeHandle w h
              .ok (some (buf.take size), w)
            | _ => do
              let w ← closeHandle w e
              let w ← closeHandle w h
              .ok (none, w)
          else do let w ← closeHandle w h; .ok (none, w)
        else .error .oom
      else .error .die
    else do let w ← closeHandle w h; .ok (none, w)

/-- The data followed by zeros up to a whole number of sectors (`rpp/w32/asyncio_w32.cpp:93-100`). -/
def padded (data : List UInt8) : List UInt8 := data ++ List.replicate (alignSector data.length - data.length) 0

/-- `SetFilePointer(handle, static_cast<u32>(size), null, FILE_BEGIN)`: the distance is a signed 32-bit number, and a
position before the start of the file is refused. -/
def seekStart (size : Nat) (a : Ans) : Bool :=
  a.seeks && decide (0 ≤ (size % 2 ^ 32 : Int).bmod (2 ^ 32))

/-- `Async::write` (`rpp/w32/asyncio_w32.cpp:67-128`): the data are written in whole sectors and the file is cut to
their length afterwards. A transfer complete at once is taken for a failure (104). Cutting a file shorter than that makes it
longer, the new bytes being zeros. -/
def asyncWrite (lim : Nat) (w : World P) (p : P) (data : List UInt8) (a : Ans) : Res (Bool × World P) :=
  match createAlways w p a with
  | none => .ok (false, w)
  | some (h, w) =>
    if a.events then
      let (e, w) := newHandle w
      let size := data.length
      let aligned := alignSector size
      if aligned ≤ 0xffffffff then
        if aligned ≤ lim then
          match a.start with
          | .failed => do
            let w ← closeHandle w e
            let w ← closeHandle w h
            .ok (false, w)
          | .done => do
            let w := setFile w p ((padded data).take (a.count.getD 0))
            let w ← closeHandle w e
            let w ← closeHandle w h
            .ok (false, w)
          | .pending => do
            let b := (padded data).take (a.count.getD 0)
            let w := setFile w p b
            let w ← closeHandle w e
            if seekStart size a then
              if a.cuts then
                let w ← closeHandle (setFile w p (filled size size b)) h
                .ok (true, w)
              else do let w ← closeHandle w h; .ok (false, w)
            else do let w ← closeHandle w h; .ok (false, w)
        else .error .oom
      else .error .die
    else do let w ← closeHandle w h; .ok (false, w)

/-- When a waitable timer set at time `now` to `due` is signalled, in units of 100 ns since 1601: a negative number
is relative, others are absolute and may have passed already (`SetWaitableTimer`). -/
def fires (now : Nat) (due : Int) : Nat := if due < 0 then now + due.natAbs else max now due.natAbs

/-- The due time of `Async::wait(ms)` (`rpp/w32/asyncio_w32.cpp:138-139`): the product wraps around in 64 bits, is
converted to a signed number and negated, which overflows for the smallest one. -/
def dueTime (ms : Nat) : Res Int :=
  let d := ((ms * 10000 % 2 ^ 64 : Nat) : Int).bmod (2 ^ 64)
  if d = -2 ^ 63 then .error .ub else .ok (-d)

/-- `Async::wait` (`rpp/w32/asyncio_w32.cpp:130-150`), once the timer is created and set: when the task goes on. -/
def wait (now ms : Nat) : Res Nat := do
  let d ← dueTime ms
  .ok (fires now d)

end Rpp.FilesWin
