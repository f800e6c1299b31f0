import Verif.Model.NetWin

/-!
# Model: names handed to the system

`rpp/pos/files_pos.cpp:12-16, 42-46, 63-64`, `rpp/pos/asyncio_pos.cpp:17-21, 47-51`, `rpp/w32/w32_util.cpp:8-26`. The system takes names that end with a
zero. `conv` is the conversion from UTF-8 to UTF-16 that `MultiByteToWideChar` does.
-/

namespace Rpp.Path

/-- The name `open` and `stat` see: the text at `path.data()` of the terminated copy. -/
def posix (v : View) : Res (List Byte) := do
  let s ← Str.terminate v
  let bs ← match (s.buf.take s.len).mapM (fun x => x) with
    | some bs => (.ok bs : Res (List Byte))
    | none => .error .ub
  Address.text (View.of bs)

/-- `MAX_PATH` (`rpp/w32/w32_util.cpp:12`). -/
def maxPath : Nat := 260

/-- `MultiByteToWideChar(CP_UTF8, 0, data, length, buffer, 260)`: fails with 0 for a length that is not positive as a 32-bit number
(-1 stands for text up to the zero byte; that one is left out) and for more units than fit. -/
def toWide (conv : List Byte → List (BitVec 16)) (bs : List Byte) : Option (List (BitVec 16)) :=
  let n := bs.length % 2 ^ 32
  if n = 0 ∨ 2 ^ 31 ≤ n then none
  else
    let w := conv (bs.take n)
    if w.length = 0 ∨ maxPath < w.length then none else some w

/-- What `CreateFileW` reads from the buffer `w`, in which there may be other units behind: up to the zero unit. `none`: there is none
in what was written, so that old contents of the buffer are read. -/
def wideName (w : List (BitVec 16)) : Option (List (BitVec 16)) := if 0#16 ∈ w then some (w.takeWhile (· != 0#16)) else none

/-- `utf8_to_ucs2` (`rpp/w32/w32_util.cpp:8-26`) and the name `CreateFileW` sees; `.ok none`: the conversion fails, and so does the call. -/
def windows (conv : List Byte → List (BitVec 16)) (v : View) : Res (Option (List (BitVec 16))) := do
  let s ← Str.terminate v
  let bs ← match (s.buf.take s.len).mapM (fun x => x) with
    | some bs => (.ok bs : Res (List Byte))
    | none => .error .ub
  match toWide conv bs with
  | none => .ok none
  | some w => match wideName w with
    | none => .error .ub
    | some n => .ok (some n)

/-- Conversion of ASCII text, for the examples (`MultiByteToWideChar`, called at `rpp/w32/w32_util.cpp:15`). -/
def ascii (bs : List Byte) : List (BitVec 16) := bs.map (·.zeroExtend 16)

end Rpp.Path
