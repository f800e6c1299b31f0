import Verif.Model.Format
import Verif.Model.Ieee

/-!
# Model: floating point numbers as text

`%f` (`rpp/format.h:94-95, 158-159`) and `parse_f32` (`rpp/format1.h:35-47`). `Libc::snprintf` and `Libc::strtof` are those of the C library
(`rpp/impl/base.cpp:42-56`) in the C locale; both are taken to round correctly, half to even, as glibc does. Simplified: zero has no
sign when it is read.
-/

namespace Rpp.FloatText

open Rpp.Fmt Rpp.Ieee

/-- The last `f` decimal digits of `n`. -/
def pad : Nat → Nat → List Byte
  | 0, _ => []
  | f + 1, n => pad f (n / 10) ++ [BitVec.ofNat 8 (48 + n % 10)]

/-- What `%f` prints for a finite number: six decimals. -/
def printF (x : Rat) : List Byte :=
  let n := (Angle.nearest (|x| * 10 ^ 6)).toNat
  (if x < 0 then [ch '-'] else []) ++ (digits 310 (n / 10 ^ 6) ++ ch '.' :: pad 6 n)

/-- What `%f` prints. -/
def print : F → List Byte
  | .fin x => printF x
  | .inf neg => if neg then lit "-inf" else lit "inf"
  | .nan => lit "nan"

/-- Hexadecimal digits. -/
def isxdigit (b : Byte) : Bool := isdigit b || (ch 'a' ≤ b && b ≤ ch 'f') || (ch 'A' ≤ b && b ≤ ch 'F')
def xval (b : Byte) : Nat :=
  if isdigit b then b.toNat - 48 else if ch 'a' ≤ b then b.toNat - 87 else b.toNat - 55

/-- Digits with at most one point among them: the value and how many bytes; nothing without a digit. -/
def mantissa (base : Nat) (isd : Byte → Bool) (val : Byte → Nat) (r : List Byte) : Option (Rat × Nat) :=
  let a := r.takeWhile isd
  let r1 := r.drop a.length
  let dot := if r1.head? = some (ch '.') then 1 else 0
  let b := if r1.head? = some (ch '.') then (r1.drop 1).takeWhile isd else []
  if a ++ b = [] then none
  else some ((((a ++ b).foldl (fun s d => base * s + val d) 0 : Nat) : Rat) / base ^ b.length, a.length + dot + b.length)

/-- An exponent, if there is one: its value and how many bytes. -/
def exponent (low high : Byte) (r : List Byte) : Int × Nat :=
  if r.head? = some low ∨ r.head? = some high then
    let r1 := r.drop 1
    let neg := r1.head? = some (ch '-')
    let sign := if neg ∨ r1.head? = some (ch '+') then 1 else 0
    let ds := (r1.drop sign).takeWhile isdigit
    if ds = [] then (0, 0)
    else
      let m : Nat := ds.foldl (fun a d => 10 * a + (d.toNat - 48)) 0
      (if neg then - (m : Int) else m, 1 + sign + ds.length)
  else (0, 0)

/-- Lower case. -/
def low (b : Byte) : Byte := if ch 'A' ≤ b && b ≤ ch 'Z' then b + 32#8 else b

/-- `(...)` after `nan`. -/
def nanTail (r : List Byte) : Nat :=
  let n := ((r.drop 1).takeWhile (fun b => isdigit b || (ch 'a' ≤ low b && low b ≤ ch 'z') || b = ch '_')).length
  if r.head? = some (ch '(') ∧ r[n + 1]? = some (ch ')') then n + 2 else 0

/-- `strtof(str, &end)` of the C standard: the value and `end - str`, which is 0 if there is no number. -/
def strtof (str : List Byte) : F × Nat :=
  let ws := str.takeWhile isspace
  let r := str.drop ws.length
  let neg := r.head? = some (ch '-')
  let sign := if neg ∨ r.head? = some (ch '+') then 1 else 0
  let r := r.drop sign
  let at0 := ws.length + sign
  let signed (x : Rat) : F := rnd f32 (if neg then -x else x)
  match (if (r.take 2).map low = lit "0x" then mantissa 16 isxdigit xval (r.drop 2) else none) with
  | some (m, k) =>
    let (e, l) := exponent (ch 'p') (ch 'P') (r.drop (2 + k))
    (signed (m * 2 ^ e), at0 + (2 + k) + l)
  | none =>
    match mantissa 10 isdigit (fun b => b.toNat - 48) r with
    | some (m, k) =>
      let (e, l) := exponent (ch 'e') (ch 'E') (r.drop k)
      (signed (m * 10 ^ e), at0 + k + l)
    | none =>
      if (r.take 8).map low = lit "infinity" then (.inf (decide neg), at0 + 8)
      else if (r.take 3).map low = lit "inf" then (.inf (decide neg), at0 + 3)
      else if (r.take 3).map low = lit "nan" then (.nan, at0 + 3 + nanTail (r.drop 3))
      else (.fin 0, 0)

/-- `parse_f32` (`rpp/format1.h:35-47`). -/
def parse_f32 (input : View) : Res (Option (F × View)) := do
  let term ← Str.terminate input
  -- the bytes of `term`, all of them written
  let bytes ← (term.buf.mapM (fun (b : Option Byte) => match b with
    | some b => Except.ok b
    | none => Except.error Err.ub))
  let (ret, n) := strtof bytes
  if n = 0 then return none
  let rest ← input.sub n input.len
  return some (ret, rest)

end Rpp.FloatText
