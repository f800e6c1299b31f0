import Verif.Model.NetWin
import Verif.Spec.LogLine

/-!
# Model: the text of a log line

`rpp/impl/log.cpp:126-168`. `printf` follows the C standard. The lengths and the width are passed as 64-bit numbers where `printf`
takes an `int`; the standard does not define that. Modelled is what the usual calling conventions of 64-bit systems give: the
lower 32 bits, as a signed number.
-/

namespace Rpp.LogLine
open Spec.LogLine (Level)

/-- What `%zu` prints (`rpp/impl/log.cpp:135, 139, 143`): the decimal digits. -/
def zu (n : Nat) : List Byte := lit (toString n)

/-- `%.*s` with the precision `n`: at most so many bytes, and none from a zero byte on; a negative precision counts as none, so that
the text must end with a zero byte. -/
def prec (v : View) (n : Nat) : Res (List Byte) :=
  let p := NetWin.toI32 n
  if p < 0 then Address.text v
  else
    let t := (v.mem.drop v.off).take p.toNat
    if 0#8 ∈ t ∨ v.off + p.toNat ≤ v.mem.length then .ok (t.takeWhile (· != 0#8)) else .error .ub

/-- `%*s` with the empty string: as many spaces as the width says, whatever its sign. -/
def pad (n : Nat) : List Byte := List.replicate (NetWin.toI32 n).natAbs (ch ' ')

/-- `INDENT_SIZE` (`rpp/log.h:47`). -/
def indentSize : Nat := 4

/-- The line `printf` prints for a message (`rpp/impl/log.cpp:131-145, 154-155`). -/
def output (level : Level) (time : View) (thread : Nat) (file : View) (row indent : Nat) (msg : View) : Res (List Byte) := do
  let levelStr := match level with
    | .info => lit "info"
    | .warn => lit "warn"
    | .fatal => lit "fatal"
  let t ← prec time time.len
  let f ← prec file file.len
  let m ← prec msg msg.len
  let body := t ++ lit " [" ++ levelStr ++ lit "/" ++ zu thread ++ lit "] [" ++ f ++ lit ":" ++ zu row ++ lit "]: " ++
    pad (wmul indent indentSize) ++ m
  return match level with
    | .info => body ++ [10#8]
    | _ => 27#8 :: lit "[0;31m" ++ body ++ 27#8 :: lit "[0m" ++ [10#8]

end Rpp.LogLine
