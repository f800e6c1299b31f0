import Verif.Model.Format

/-!
# Model: the text of a system error on Windows

`rpp/impl/log.cpp:48-69` (`Log::sys_error`), `rpp/w32/w32_util.cpp:28-51`. The system has a text in UTF-16 for each error number;
`FormatMessageW` and `WideCharToMultiByte` are modelled by their documentation. Left out: that `warn` writes a line; the texts of
the warnings are returned instead.
-/

namespace Rpp.SysErr

/-- UTF-16 code units. -/
abbrev Wide := BitVec 16

/-- The code points a unit stands for when it is not part of a pair; surrogates give U+FFFD (`WideCharToMultiByte`, flags 0). -/
def single (u : Wide) : Nat := if 0xD800 ≤ u.toNat ∧ u.toNat < 0xE000 then 0xFFFD else u.toNat

/-- The code point of a surrogate pair. -/
def pair (u v : Wide) : Option Nat :=
  if 0xD800 ≤ u.toNat ∧ u.toNat < 0xDC00 ∧ 0xDC00 ≤ v.toNat ∧ v.toNat < 0xE000 then
    some (0x10000 + (u.toNat - 0xD800) * 0x400 + (v.toNat - 0xDC00))
  else none

/-- UTF-8 of a code point. -/
def utf8Point (c : Nat) : List Byte :=
  if c < 0x80 then [BitVec.ofNat 8 c]
  else if c < 0x800 then [BitVec.ofNat 8 (0xC0 + c / 64), BitVec.ofNat 8 (0x80 + c % 64)]
  else if c < 0x10000 then
    [BitVec.ofNat 8 (0xE0 + c / 4096), BitVec.ofNat 8 (0x80 + c / 64 % 64), BitVec.ofNat 8 (0x80 + c % 64)]
  else
    [BitVec.ofNat 8 (0xF0 + c / 262144), BitVec.ofNat 8 (0x80 + c / 4096 % 64), BitVec.ofNat 8 (0x80 + c / 64 % 64),
     BitVec.ofNat 8 (0x80 + c % 64)]

/-- The conversion `WideCharToMultiByte(CP_UTF8, 0, ...)` does (called at `rpp/w32/w32_util.cpp:33`). -/
def utf8 : List Wide → List Byte
  | [] => []
  | [u] => utf8Point (single u)
  | u :: v :: r =>
    match pair u v with
    | some c => utf8Point c ++ utf8 r
    | none => utf8Point (single u) ++ utf8 (v :: r)

/-- `basic_win32_error` (`rpp/w32/w32_util.cpp:43-51`). -/
def basic (err : Nat) : List Byte := lit "Win32 Error: " ++ Fmt.intText err

/-- `ERROR_INSUFFICIENT_BUFFER`, the error `WideCharToMultiByte` sets if the buffer is too small. -/
def insufficient : Nat := 122

/-- The buffer of `ucs2_to_utf8` (`rpp/w32/w32_util.cpp:30`). -/
def narrowSize : Nat := 256

/-- The buffer of `sys_error` (`rpp/impl/log.cpp:50`). -/
def wideSize : Nat := 256

/-- `FormatMessageW` into the buffer (`rpp/impl/log.cpp:58-59`): the text, for which there must be room with the terminator, or
nothing. -/
def format (msg : Nat → List Wide) (err : Nat) : List Wide := if (msg err).length + 1 ≤ wideSize then msg err else []

/-- `Log::sys_error` (`rpp/impl/log.cpp:48-69`) with `ucs2_to_utf8` (`rpp/w32/w32_util.cpp:28-41`) inside; `err` is the last
error, the result are the text and the warnings written on the way. The argument of the warning in `ucs2_to_utf8` is another
call, for the error of the conversion: one level of `fuel`, as it is one of the stack. -/
def sysError (msg : Nat → List Wide) : Nat → Nat → Res (List Byte × List (List Byte))
  | 0, _ => .error .hang
  | fuel + 1, err =>
    if err = 0 then .ok ([], [])
    else
      let w := format msg err
      let written := w.length
      if wideSize < written + 1 then .error .die
      else if written ≤ 1 then .ok (basic err, [])
      else
        let text := utf8 (w.take (written - 1))
        if text.length ≤ narrowSize then .ok (text, [])
        else match sysError msg fuel insufficient with
          | .error e => .error e
          | .ok (why, ws) => .ok (basic err, ws ++ [lit "Failed to convert ucs2 to utf8: " ++ why])

end Rpp.SysErr
