import Verif.Model.Mem
import Verif.Spec.Files

/-!
# Model: write times and `Write_Watcher` on Windows

`rpp/w32/files_w32.cpp:9-35`, `rpp/files.h:19-47`. The watcher keeps a `String_View` of the path (`rpp/files.h:45`), so it looks at the text again at
each poll; the memory the text lies in is part of the model. Left out: the conversion of the path to UTF-16 (`Model/Path`; a path that cannot be
converted is one without a file here, both give no time), the log output.
-/

namespace Rpp.Watcher

/-- `FILETIME`, the time in units of 100 ns since 1601 in two halves (used at `rpp/w32/files_w32.cpp:24-25, 29-33`). -/
structure FILETIME where
  low : BitVec 32
  high : BitVec 32
deriving DecidableEq

/-- What `last_write_time` makes of it (`rpp/w32/files_w32.cpp:24-25`). -/
def pack (t : FILETIME) : BitVec 64 := (t.high.setWidth 64 <<< 32) ||| t.low.setWidth 64

/-- The halves again (`rpp/w32/files_w32.cpp:30-33`). -/
def unpack (x : BitVec 64) : FILETIME := { low := x.setWidth 32, high := (x >>> 32).setWidth 32 }

/-- `CompareFileTime` as documented: -1, 0 or 1 (called at `rpp/w32/files_w32.cpp:34`). -/
def compareFileTime (a b : FILETIME) : Int :=
  if a.high < b.high then -1
  else if b.high < a.high then 1
  else if a.low < b.low then -1
  else if b.low < a.low then 1
  else 0

/-- `before` (`rpp/w32/files_w32.cpp:28-35`). -/
def before (first second : BitVec 64) : Bool := decide (compareFileTime (unpack first) (unpack second) = -1)

/-- What a call finds: the bytes of the memory (`none`: given back) and the write times of the files by name. -/
structure World where
  mem : Nat → Option UInt8
  disk : List UInt8 → Option FILETIME

/-- A `String_View` (`rpp/base.h`, `rpp/string1.h`): where the text begins and its length. -/
structure Text where
  ptr : Nat
  len : Nat
deriving DecidableEq

/-- The text a view shows; reading memory that was given back is undefined. -/
def Text.read (w : World) (s : Text) : Res (List UInt8) :=
  (List.range s.len).mapM fun i => match w.mem (s.ptr + i) with
    | some b => .ok b
    | none => .error .ub

/-- `last_write_time` (`rpp/w32/files_w32.cpp:9-26`). -/
def lastWriteTime (w : World) (path : Text) : Res (Option (BitVec 64)) := do
  let name ← path.read w
  match w.disk name with
  | none => return none
  | some t => return some (pack t)

/-- `Write_Watcher` (`rpp/files.h:19, 44-46`). -/
structure Watcher where
  path : Text
  last : BitVec 64
deriving DecidableEq

/-- The constructor (`rpp/files.h:21-25`). -/
def watch (w : World) (path : Text) : Res Watcher := do
  if path.len = 0 then return { path := path, last := 0 }
  match ← lastWriteTime w path with
  | some t => return { path := path, last := t }
  | none => return { path := path, last := 0 }

/-- `poll` (`rpp/files.h:35-42`). -/
def poll (w : World) (s : Watcher) : Res (Bool × Watcher) := do
  if s.path.len = 0 then return (false, s)
  match ← lastWriteTime w s.path with
  | none => return (false, s)
  | some t => return (before s.last t, { s with last := t })

/-- One poll in each of the worlds, in turn. -/
def polls (s : Watcher) : List World → Res (List Bool)
  | [] => .ok []
  | w :: ws => do
    let (b, s) ← poll w s
    return b :: (← polls s ws)

/-- A watcher made in the first world and polled in the others. -/
def run (path : Text) (w : World) (ws : List World) : Res (List Bool) := do
  polls (← watch w path) ws

end Rpp.Watcher
