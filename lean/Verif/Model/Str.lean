import Verif.Model.Mem
import Verif.Model.Word

/-!
# Model of `rpp::String_View` and `rpp::String` (`rpp/string0.h`, `rpp/string1.h`)

A view is a pointer into some memory block plus a length. Reads through `data_` outside the block
are undefined behaviour; `operator[]` and `sub` have asserts. `u64` is a natural number, with
explicit wrap-around (`wadd`, `wsub`) where the code does arithmetic on caller supplied numbers.
Bytes are `BitVec 8`. Allocation is taken to succeed.
-/

namespace Rpp

abbrev Byte := BitVec 8

/-- The byte of an ASCII character. -/
def ch (c : Char) : Byte := BitVec.ofNat 8 c.toNat

/-- The bytes of an ASCII string. -/
def lit (s : String) : List Byte := s.toList.map ch

/-- `String_View` (`rpp/string0.h:77-79`): `data_` points to index `off` of the block `mem`. -/
structure View where
  mem : List Byte
  off : Nat
  len : Nat
  deriving DecidableEq, Repr

namespace View

/-- `String_View{}` (`rpp/string0.h:15`): null and 0. -/
def null : View := ⟨[], 0, 0⟩

/-- A view of a whole block (literal, or `String::view`). -/
def of (s : List Byte) : View := ⟨s, 0, s.length⟩

/-- `data_[i]`: no check. -/
def raw (v : View) (i : Nat) : Res Byte :=
  match v.mem[v.off + i]? with
  | some b => .ok b
  | none => .error .ub

/-- `operator[]` (`rpp/string1.h:60-63`). -/
def at' (v : View) (i : Nat) : Res Byte :=
  if i < v.len then v.raw i else .error .die

/-- `sub` (`rpp/string1.h:54-58`, `28-33` for `String`). -/
def sub (v : View) (start stop : Nat) : Res View :=
  if ¬ start ≤ stop then .error .die
  else if ¬ stop ≤ v.len then .error .die
  else .ok ⟨v.mem, v.off + start, stop - start⟩

/-- `::strncmp(a, b, n) == 0` (C standard; `rpp/impl/base.cpp:22-24`): compares up to `n` bytes and
stops after a zero byte common to both. Started at index `i` with `n` bytes left. -/
def strncmpEq (a b : View) : Nat → Nat → Res Bool
  | _, 0 => .ok true
  | i, n + 1 => do
    let x ← a.raw i
    let y ← b.raw i
    if x ≠ y then return false
    if x = 0#8 then return true
    strncmpEq a b (i + 1) n

/-- `operator==` (`rpp/string0.h:199-203`, and `214-233` for the other combinations). -/
def eq (l r : View) : Res Bool :=
  if l.len ≠ r.len then .ok false
  else strncmpEq l r 0 l.len

/-- Loop of `operator<`, at index `i` with `n` iterations left. -/
def ltLoop (l r : View) : Nat → Nat → Res (Option Bool)
  | _, 0 => .ok none
  | i, n + 1 => do
    let x ← l.at' i
    let y ← r.at' i
    if x < y then return some true
    let x ← l.at' i
    let y ← r.at' i
    if x > y then return some false
    ltLoop l r (i + 1) n

/-- `operator<` (`rpp/string0.h:205-212`, `235-243`). -/
def lt (l r : View) : Res Bool := do
  let length := if l.len < r.len then l.len else r.len
  match ← ltLoop l r 0 length with
  | some b => return b
  | none => return decide (l.len < r.len)

/-- The loop `for(; i != 0; i--) if(stop(data_[i])) { ...; break; }` of `file_suffix` and its
siblings: final `i`, and whether it was left by `break`. -/
def scanBack (v : View) (stop : Byte → Bool) : Nat → Res (Nat × Bool)
  | 0 => .ok (0, false)
  | i + 1 => do
    let b ← v.raw (i + 1)
    if stop b then return (i + 1, true)
    scanBack v stop i

/-- `'\\'` or `'/'`. -/
def isSep (b : Byte) : Bool := b = ch '\\' || b = ch '/'

/-- `file_suffix` (`rpp/string1.h:65-79`). -/
def file_suffix (v : View) : Res View := do
  if v.len = 0 then return null
  let (i, found) ← v.scanBack isSep (v.len - 1)
  let offset := if found then 1 else 0
  return ⟨v.mem, v.off + i + offset, wsub (wsub v.len i) offset⟩

/-- `file_extension` (`rpp/string1.h:81-95`). -/
def file_extension (v : View) : Res View := do
  if v.len = 0 then return null
  let (i, found) ← v.scanBack (fun b => b = ch '.' || isSep b) (v.len - 1)
  let offset := if found then 1 else 0
  return ⟨v.mem, v.off + i + offset, wsub (wsub v.len i) offset⟩

/-- `remove_file_suffix` (`rpp/string1.h:97-111`). -/
def remove_file_suffix (v : View) : Res View := do
  if v.len = 0 then return null
  let (i, found) ← v.scanBack isSep (v.len - 1)
  return ⟨v.mem, v.off, i + (if found then 1 else 0)⟩

end View

/-- `ascii::to_uppercase` (`rpp/string0.h:247-250`). -/
def to_uppercase (c : Byte) : Byte :=
  if c ≥ ch 'a' ∧ c ≤ ch 'z' then c - ch 'a' + ch 'A' else c

/-- `ascii::to_lowercase` (`rpp/string0.h:251-254`). -/
def to_lowercase (c : Byte) : Byte :=
  if c ≥ ch 'A' ∧ c ≤ ch 'Z' then c - ch 'A' + ch 'a' else c

/-- `ascii::is_whitespace` (`rpp/string0.h:255-257`): blank, `\t`, `\n`, `\r`, `\v`. -/
def is_whitespace (c : Byte) : Bool :=
  c = 32#8 || c = 9#8 || c = 10#8 || c = 13#8 || c = 11#8

/-- `rpp::String` (`rpp/string0.h:180-183`): the bytes of the allocation (`none`: not yet written)
and `length_`; `capacity_` is the size of the allocation. -/
structure Str where
  buf : List (Option Byte)
  len : Nat
  deriving DecidableEq, Repr

namespace Str

/-- `String(u64 capacity)` (`rpp/string0.h:88-90`). -/
def withCapacity (n : Nat) : Str := ⟨List.replicate n none, 0⟩

/-- `set_length` (`rpp/string1.h:10-14`). -/
def set_length (s : Str) (n : Nat) : Res Str :=
  if n ≤ s.buf.length then .ok { s with len := n } else .error .die

/-- The bytes a view covers, as read by `memcpy(…, data_, length_)`. -/
def bytesOf (v : View) : Res (List Byte) :=
  if v.len = 0 then .ok []
  else if v.off + v.len ≤ v.mem.length then .ok ((v.mem.drop v.off).take v.len)
  else .error .ub

/-- `Libc::memcpy(data_ + i, text, n)` into the buffer. -/
def copyIn (s : Str) (i : Nat) (text : List Byte) : Res Str :=
  if text.length = 0 then .ok s
  else if i + text.length ≤ s.buf.length then
    .ok { s with buf := s.buf.take i ++ text.map some ++ s.buf.drop (i + text.length) }
  else .error .ub

/-- `write(u64 i, char c)` (`rpp/string1.h:113-118`); returns the string and the new index. -/
def writeChar (s : Str) (i : Nat) (c : Byte) : Res (Str × Nat) :=
  if ¬ i < s.len then .error .die
  else if i < s.buf.length then .ok ({ s with buf := s.buf.set i (some c) }, i + 1)
  else .error .ub

/-- `write(u64 i, String_View text)` (`rpp/string1.h:120-133`): the sum in the assert wraps. -/
def write (s : Str) (i : Nat) (text : View) : Res (Str × Nat) := do
  if ¬ wadd i text.len ≤ s.len then .error .die
  let bs ← bytesOf text
  let s ← s.copyIn i bs
  return (s, wadd i text.len)

/-- `data_[i] = c` through `operator[]` (`rpp/string1.h:22-26`). -/
def assign (s : Str) (i : Nat) (c : Byte) : Res Str :=
  if ¬ i < s.len then .error .die
  else if i < s.buf.length then .ok { s with buf := s.buf.set i (some c) }
  else .error .ub

/-- `terminate` (`rpp/string1.h:35-52`). -/
def terminate (v : View) : Res Str := do
  let ret := withCapacity (wadd v.len 1)
  let ret ← ret.set_length (wadd v.len 1)
  let bs ← bytesOf v
  let ret ← ret.copyIn 0 bs
  ret.assign v.len 0#8

/-- `append` (`rpp/string1.h:135-152`). -/
def append (a b : View) : Res Str := do
  let ret := withCapacity (wadd a.len b.len)
  let ret ← ret.set_length (wadd a.len b.len)
  let x ← bytesOf a
  let ret ← ret.copyIn 0 x
  let y ← bytesOf b
  ret.copyIn a.len y

/-- `String_View::string` (`rpp/string0.h:189-197`). -/
def ofView (v : View) : Res Str := do
  let ret : Str := ⟨List.replicate v.len none, v.len⟩
  let bs ← bytesOf v
  ret.copyIn 0 bs

/-- `String::clone` (`rpp/string0.h:119-127`): the same capacity, the first `length_` bytes. -/
def clone (s : Str) : Res Str :=
  if s.len ≤ s.buf.length then
    .ok { buf := s.buf.take s.len ++ List.replicate (s.buf.length - s.len) none, len := s.len }
  else .error .ub

end Str

/-- `Slice<T>` (`rpp/slice.h`): pointer into a block of `mem` elements and a length. -/
structure SliceV where
  memLen : Nat
  off : Nat
  len : Nat
  deriving DecidableEq, Repr

namespace SliceV

/-- `Slice::sub(start, length)` (`rpp/slice.h:116-119`): the sum in the assert wraps. -/
def sub (s : SliceV) (start length : Nat) : Res SliceV :=
  if ¬ wadd start length ≤ s.len then .error .die
  else .ok ⟨s.memLen, s.off + start, length⟩

end SliceV

end Rpp
