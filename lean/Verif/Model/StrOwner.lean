import Verif.Model.Str
import Verif.Spec.Strings

/-!
# Model: strings that own memory, and views into it

`String` and `String_View` (`rpp/string0.h:13-197`, `rpp/string1.h:10-152`) with the memory they point to: blocks of bytes from an
allocator, never at the same address twice. `Verif.Model.Str` has the same members with the bytes in the place of the pointer; here
what is modelled is which memory they read, write and free. Simplified: copying no bytes is allowed with any pointers; allocations of
more than `lim` bytes fail, all others succeed.
-/

namespace Rpp.StrOwn
open Spec.Strs (Op Out set)

/-- `String` (`rpp/string0.h:181-183`): `data_`, `length_`, `capacity_`. -/
structure Str where
  data : Option Nat
  len : Nat
  cap : Nat
deriving DecidableEq

/-- A null string (`rpp/string0.h:87`). -/
def nil : Str := ⟨none, 0, 0⟩

/-- Where a view points. A literal is static memory (`rpp/string0.h:307-310`). -/
inductive Ptr where
  | null
  | heap (id : Nat)
  | lit (b : List Byte)
deriving DecidableEq

/-- `String_View` (`rpp/string0.h:78-79`): `data_` is `off` bytes into the memory. -/
structure View where
  ptr : Ptr
  off : Nat
  len : Nat
deriving DecidableEq

/-- The pointer of a string. -/
def Str.ptr (t : Str) : Ptr := match t.data with
  | none => .null
  | some id => .heap id

/-- The blocks, by number; `none` once freed. Bytes not written yet are `none`. -/
abbrev Mem := List (Option (List (Option Byte)))

structure St where
  mem : Mem
  vars : Nat → Str
  views : Nat → View
  out : List Out

/-- At the beginning. -/
def init : St := ⟨[], fun _ => nil, fun _ => ⟨.null, 0, 0⟩, []⟩

/-- `A::alloc` (`rpp/alloc1.h:91-99`): null for no bytes. -/
def alloc (lim : Nat) (m : Mem) (n : Nat) : Res (Option Nat × Mem) :=
  if n > lim then .error .oom
  else if n = 0 then .ok (none, m)
  else .ok (some m.length, m ++ [some (List.replicate n none)])

/-- `A::free` (`rpp/alloc1.h:101-108`): null is ignored. -/
def free (m : Mem) : Option Nat → Res Mem
  | none => .ok m
  | some id => match m[id]? with
    | some (some _) => .ok (m.set id none)
    | _ => .error .ub

/-- `n` bytes from an address on. -/
def load (m : Mem) (p : Ptr) (off n : Nat) : Res (List (Option Byte)) :=
  if n = 0 then .ok []
  else match p with
    | .null => .error .ub
    | .lit b => if off + n ≤ b.length then .ok (((b.map some).drop off).take n) else .error .ub
    | .heap id => match m[id]? with
      | some (some b) => if off + n ≤ b.length then .ok ((b.drop off).take n) else .error .ub
      | _ => .error .ub

/-- The bytes `l` written at an address. -/
def store (m : Mem) (p : Option Nat) (off : Nat) (l : List (Option Byte)) : Res Mem :=
  if l.length = 0 then .ok m
  else match p with
    | none => .error .ub
    | some id => match m[id]? with
      | some (some b) =>
        if off + l.length ≤ b.length then .ok (m.set id (some (b.take off ++ l ++ b.drop (off + l.length)))) else .error .ub
      | _ => .error .ub

instance (dst : Option Nat) (src : Ptr) : Decidable (∃ id, dst = some id ∧ src = .heap id) :=
  match dst, src with
  | some a, .heap b => if h : a = b then isTrue ⟨a, rfl, by rw [h]⟩ else isFalse (by rintro ⟨i, h1, h2⟩; cases h1; cases h2; exact h rfl)
  | none, _ => isFalse (by rintro ⟨i, h1, _⟩; cases h1)
  | some _, .null => isFalse (by rintro ⟨i, _, h⟩; cases h)
  | some _, .lit _ => isFalse (by rintro ⟨i, _, h⟩; cases h)

/-- `Libc::memcpy` (`rpp/impl/base.cpp:38-40`): the two pieces of memory must not overlap (C standard). -/
def memcpy (m : Mem) (dst : Option Nat) (doff : Nat) (src : Ptr) (soff n : Nat) : Res Mem :=
  if n ≠ 0 ∧ (∃ id, dst = some id ∧ src = .heap id) ∧ doff < soff + n ∧ soff < doff + n then .error .ub
  else match load m src soff n with
    | .error e => .error e
    | .ok l => store m dst doff l

/-- Bytes that are used must have been written. -/
def values : List (Option Byte) → Res (List Byte)
  | [] => .ok []
  | none :: _ => .error .ub
  | some b :: l => match values l with
    | .error e => .error e
    | .ok r => .ok (b :: r)

/-- `operator=(String&&)` from a temporary (`rpp/string0.h:108-117`), whose destructor then frees null. -/
def assign (s : St) (x : Nat) (t : Str) : Res St :=
  match free s.mem (s.vars x).data with
  | .error e => .error e
  | .ok m => .ok { s with mem := m, vars := set s.vars x t }

/-- `operator=(String&&)` from a variable (`rpp/string0.h:108-117`), statement by statement: the destructor (88-93), the three fields,
and the source that is made null. -/
def moveAssign (s : St) (x y : Nat) : Res St :=
  match free s.mem (s.vars x).data with
  | .error e => .error e
  | .ok m =>
    let vars := set s.vars x nil
    let vars := set vars x (vars y)
    .ok { s with mem := m, vars := set vars y nil }

/-- `set_length` (`rpp/string1.h:10-14`). -/
def setLength (t : Str) (n : Nat) : Res Str := if n ≤ t.cap then .ok { t with len := n } else .error .die

/-- `String_View::string` (`rpp/string0.h:189-197`) and `clone` (`rpp/string0.h:119-127`), by the pointer, the number of bytes to
copy and the capacity. -/
def copyOf (lim : Nat) (s : St) (p : Ptr) (off n cap : Nat) : Res (Str × St) :=
  match alloc lim s.mem cap with
  | .error e => .error e
  | .ok (d, m) => match memcpy m d 0 p off n with
    | .error e => .error e
    | .ok m => .ok (⟨d, n, cap⟩, { s with mem := m })

/-- `String_View::append` (`rpp/string1.h:135-142`). -/
def append (lim : Nat) (s : St) (v w : View) : Res (Str × St) :=
  match alloc lim s.mem (wadd v.len w.len) with
  | .error e => .error e
  | .ok (d, m) => match setLength ⟨d, 0, wadd v.len w.len⟩ (wadd v.len w.len) with
    | .error e => .error e
    | .ok t => match memcpy m t.data 0 v.ptr v.off v.len with
      | .error e => .error e
      | .ok m => match memcpy m t.data v.len w.ptr w.off w.len with
        | .error e => .error e
        | .ok m => .ok (t, { s with mem := m })

/-- `String_View::terminate` (`rpp/string1.h:35-42`). -/
def terminate (lim : Nat) (s : St) (v : View) : Res (Str × St) :=
  match alloc lim s.mem (wadd v.len 1) with
  | .error e => .error e
  | .ok (d, m) => match setLength ⟨d, 0, wadd v.len 1⟩ (wadd v.len 1) with
    | .error e => .error e
    | .ok t => match memcpy m t.data 0 v.ptr v.off v.len with
      | .error e => .error e
      | .ok m =>
        if v.len < t.len then
          match store m t.data v.len [some 0#8] with
          | .error e => .error e
          | .ok m => .ok (t, { s with mem := m })
        else .error .die

/-- `String::write` of bytes (`rpp/string1.h:120-133`): the sum wraps around. -/
def write (s : St) (x i : Nat) (p : Ptr) (off n : Nat) : Res St :=
  if wadd i n ≤ (s.vars x).len then
    match memcpy s.mem (s.vars x).data i p off n with
    | .error e => .error e
    | .ok m => .ok { s with mem := m }
  else .error .die

/-- The bytes read become output. -/
def output (s : St) (r : Res (List (Option Byte))) : Res St :=
  match r with
  | .error e => .error e
  | .ok b => match values b with
    | .error e => .error e
    | .ok l => .ok { s with out := s.out ++ [.bytes l] }

/-- `x = t` for a string that was just made. -/
def into (x : Nat) (r : Res (Str × St)) : Res St :=
  match r with
  | .error e => .error e
  | .ok (t, s) => assign s x t

/-- One operation of a program: the constructors and destructor (`rpp/string0.h:87-97`), the indexing operators
(`rpp/string1.h:16-26, 60-63`), `sub` (`rpp/string1.h:28-33, 54-58`), `write` of a character (`rpp/string1.h:113-118`), `view`
(`rpp/string0.h:134-136`), iteration (`rpp/string0.h:47-52`), and the functions above. -/
def step (lim : Nat) (s : St) : Op → Res St
  | .fresh x n => match alloc lim s.mem n with
    | .error e => .error e
    | .ok (d, m) => assign { s with mem := m } x ⟨d, 0, n⟩
  | .lit v b => .ok { s with views := set s.views v ⟨.lit b, 0, b.length⟩ }
  | .clone x y => into x (copyOf lim s (s.vars y).ptr 0 (s.vars y).len (s.vars y).cap)
  | .move x y => moveAssign s x y
  | .drop x => assign s x nil
  | .setLen x n => match setLength (s.vars x) n with
    | .error e => .error e
    | .ok t => .ok { s with vars := set s.vars x t }
  | .put x i b => if i < (s.vars x).len then
      match store s.mem (s.vars x).data i [some b] with
      | .error e => .error e
      | .ok m => .ok { s with mem := m }
    else .error .die
  | .get x i => if i < (s.vars x).len then output s (load s.mem (s.vars x).ptr i 1) else .error .die
  | .length x => .ok { s with out := s.out ++ [.num (s.vars x).len] }
  | .writeView x i v => write s x i (s.views v).ptr (s.views v).off (s.views v).len
  | .writeStr x i y => write s x i (s.vars y).ptr 0 (s.vars y).len
  | .view v x => .ok { s with views := set s.views v ⟨(s.vars x).ptr, 0, (s.vars x).len⟩ }
  | .subStr v x a b =>
    if a ≤ b then
      if b ≤ (s.vars x).len then .ok { s with views := set s.views v ⟨(s.vars x).ptr, a, b - a⟩ } else .error .die
    else .error .die
  | .sub v w a b =>
    if a ≤ b then
      if b ≤ (s.views w).len then .ok { s with views := set s.views v ⟨(s.views w).ptr, (s.views w).off + a, b - a⟩ }
      else .error .die
    else .error .die
  | .viewGet v i => if i < (s.views v).len then output s (load s.mem (s.views v).ptr ((s.views v).off + i) 1) else .error .die
  | .bytes v => output s (load s.mem (s.views v).ptr (s.views v).off (s.views v).len)
  | .append x v w => into x (append lim s (s.views v) (s.views w))
  | .terminate x v => into x (terminate lim s (s.views v))
  | .string x v => into x (copyOf lim s (s.views v).ptr (s.views v).off (s.views v).len (s.views v).len)

/-- A program. -/
def run (lim : Nat) (s : St) : List Op → Res St
  | [] => .ok s
  | o :: os => match step lim s o with
    | .error e => .error e
    | .ok s => run lim s os

end Rpp.StrOwn
