import Verif.Model.Str

/-!
# Model of `rpp::format` and the parsers (`rpp/format.h`, `rpp/format1.h` and the `Measure` and `Write`
specialisations of the containers)

The templates are instantiated by type; here a formattable value is a tree `Val` whose constructors are the
formattable types, and `measure` and `writeV` are the two passes. Lengths and indices are `u64` with
wrap-around. `Libc::snprintf` is modelled by the text it prints; the text of floats and pointers is part of
the value. The scratch regions are not modelled.
-/

namespace Rpp
namespace Fmt

/-- Sequences printed as `prefix item, item, … suffix` by the same two loops. -/
inductive Seq where
  | arr     -- `T[N]` (`rpp/format.h:98-104,162-168`) and `Array` (`rpp/array.h:115-136`)
  | vec     -- `rpp/vec.h:278-300`
  | queue   -- `rpp/queue.h:364-389`
  | stack   -- `rpp/stack.h:110-135`
  | heap    -- `rpp/heap.h:267-292`
  | slice   -- `rpp/slice.h:151-173`
  deriving DecidableEq, Repr

/-- Values printed as `Name{value}` or `Name{null}`. -/
inductive Ptr where
  | opt     -- `rpp/opt.h:139-154`
  | box     -- `rpp/box.h:119-134`
  | ref     -- `rpp/ref1.h:36-51`
  deriving DecidableEq, Repr

/-- Formattable values. -/
inductive Val where
  | void
  | char (c : Byte)
  | int (n : Int)                                  -- all integer kinds
  | float (text : List Byte)                       -- what `%f` prints
  | bool (b : Bool)
  | ptr (text : Option (List Byte))                -- what `%p` prints, or null
  | str (v : View)                                 -- `String_View` and `String`
  | seq (k : Seq) (items : List Val)
  | map (length : Nat) (items : List Val)          -- `length()` is a field of `Map`
  | item (k v : Val)                               -- an element of a map
  | record (name : List Byte) (fields : List Val)
  | field (name : List Byte) (v : Val)             -- a field of a record
  | enum (name : List Byte) (cases : List (List Byte × Int)) (value : Int)
  | own (k : Ptr) (v : Option Val)
  | rc (v : Option Val) (refs : Int)
  | arc (v : Option Val) (refs : Int)
  | pair (l r : Val)
  | tuple (items : List Val)
  | variant (v : Val)
  | named (name : List Byte) (v : Val)
  | storage (name : List Byte)
  | fn (ret : List Byte) (args : List (List Byte)) -- type names
  | vecF (items : List Val)
  | vecI (signed : Bool) (items : List Val)
  | mat4 (x0 x1 x2 x3 : Val) (y0 y1 y2 y3 : Val) (z0 z1 z2 z3 : Val) (w0 w1 w2 w3 : Val)
  | quat (x y z w : Val)
  | bbox (x y z x' y' z' : Val)

/-- Decimal digits of `n` (for `n < 10 ^ fuel`). -/
def digits : Nat → Nat → List Byte
  | 0, _ => []
  | f + 1, n =>
    if n < 10 then [BitVec.ofNat 8 (48 + n)] else digits f (n / 10) ++ [BitVec.ofNat 8 (48 + n % 10)]

/-- What `snprintf` prints for `%d`, `%u` and their siblings (C standard). -/
def intText (n : Int) : List Byte :=
  if n < 0 then ch '-' :: digits 20 n.natAbs else digits 20 n.natAbs

/-- Opening text of a sequence, as `Write` writes it. -/
def Seq.openText : Seq → List Byte
  | .arr => lit "["
  | .vec => lit "Vec["
  | .queue => lit "Queue["
  | .stack => lit "Stack["
  | .heap => lit "Heap["
  | .slice => lit "Slice["

/-- The constant `Measure` starts from. -/
def Seq.base : Seq → Nat
  | .arr => 2
  | .vec => 5
  | .queue => 7
  | .stack => 7
  | .heap => 6
  | .slice => 7

/-- Opening text of an owning pointer. -/
def Ptr.openText : Ptr → List Byte
  | .opt => lit "Opt{"
  | .box => lit "Box{"
  | .ref => lit "Ref{"

/-- Text of an empty one. -/
def Ptr.nullText : Ptr → List Byte
  | .opt => lit "Opt{None}"
  | .box => lit "Box{null}"
  | .ref => lit "Ref{null}"

/-- `length += String_View{name}.length()` for every enumerator equal to the value
(`rpp/format.h:115-119`). -/
def measureCases (value : Int) : List (List Byte × Int) → Nat
  | [] => 0
  | (name, check) :: r => wadd (if value = check then name.length else 0) (measureCases value r)

/-- The type names of a function's parameters (`rpp/function.h:126-130`), without the separators. -/
def measureNames : List (List Byte) → Nat
  | [] => 0
  | n :: r => wadd n.length (measureNames r)

/-- A row of a matrix (`rpp/vmath.h:999-1004`). -/
def measureRow (a b c d : Nat) : Nat :=
  wadd (wadd (wadd (wadd (wadd (wadd (wadd (wadd 1 a) 2) b) 2) c) 2) d) 1

mutual

/-- `Format::Measure<T>::measure` (`rpp/format.h:61-123`; `rpp/string1.h:156-167`; `rpp/vec.h:279-288`,
`rpp/queue.h:365-376`, `rpp/stack.h:111-122`, `rpp/heap.h:268-279`, `rpp/slice.h:152-161`,
`rpp/array.h:116-125`, `rpp/map.h:486-498`, `rpp/opt.h:140-145`, `rpp/box.h:120-125`, `rpp/ref1.h:37-42`,
`rpp/rc.h:252-268`, `rpp/pair.h:85-89`, `rpp/tuple.h:139-162`, `rpp/variant.h:213-229`,
`rpp/storage.h:95-99`, `rpp/function.h:118-133`, `rpp/vmath.h:970-1033`). -/
def measure : Val → Nat
  | .void => 4
  | .char _ => 1
  | .int n => (intText n).length
  | .float t => t.length
  | .bool b => if b then 4 else 5
  | .ptr none => 6
  | .ptr (some t) => wadd 2 t.length
  | .str v => v.len
  | .seq k items => wadd k.base (measureItems 0 items.length items)
  | .map n items => wadd 5 (measureItems 0 n items)
  -- `rpp/map.h:491-492`
  | .item k v => wadd 5 (wadd (measure k) (measure v))
  | .record name fields => wadd (wadd 2 name.length) (measureItems 0 fields.length fields)
  -- `Record_Length` (`rpp/format.h:32-44`)
  | .field name v => wadd (wadd name.length 3) (measure v)
  | .enum name cases value => wadd (wadd name.length 2) (measureCases value cases)
  | .own _ (some v) => wadd 5 (measure v)
  | .own _ none => 9
  | .rc (some v) refs => wadd (wadd 6 (measure v)) ((intText refs).length)
  | .rc none _ => 8
  | .arc (some v) refs => wadd (wadd 7 (measure v)) ((intText refs).length)
  | .arc none _ => 9
  | .pair l r => wadd (wadd 8 (measure l)) (measure r)
  | .tuple items =>
    wadd (if items.length > 1 then wadd 7 (wmul 2 (items.length - 1)) else 7) (measureAll items)
  | .variant v => wadd 9 (measure v)
  | .named name v => wadd (wadd name.length 2) (measure v)
  | .storage name => wadd 9 name.length
  | .fn ret args =>
    let length := wadd (wadd 10 ret.length) 2
    let length := if args.length > 0 then wadd length (measureNames args) else length
    if args.length > 1 then wadd length (wmul 2 (args.length - 1)) else length
  | .vecF items =>
    wadd (wadd 5 ((intText items.length).length)) (measureItems 0 items.length items)
  | .vecI _ items =>
    wadd (wadd 6 ((intText items.length).length)) (measureItems 0 items.length items)
  | .mat4 x0 x1 x2 x3 y0 y1 y2 y3 z0 z1 z2 z3 w0 w1 w2 w3 =>
    wadd (wadd (wadd (wadd (wadd (wadd (wadd 6
      (measureRow (measure x0) (measure x1) (measure x2) (measure x3))) 2)
      (measureRow (measure y0) (measure y1) (measure y2) (measure y3))) 2)
      (measureRow (measure z0) (measure z1) (measure z2) (measure z3))) 2)
      (measureRow (measure w0) (measure w1) (measure w2) (measure w3))
  | .quat x y z w => wadd (wadd (wadd (wadd 12 (measure x)) (measure y)) (measure z)) (measure w)
  | .bbox x y z x' y' z' =>
    wadd (wadd (wadd (wadd (wadd (wadd 20 (measure x)) (measure y)) (measure z)) (measure x'))
      (measure y')) (measure z')

/-- The loop of a sequence, map (`rpp/map.h:490-495`) or record (`rpp/format.h:35-41`): at item `i`; `n` is
the length that the loop compares with. -/
def measureItems (i n : Nat) : List Val → Nat
  | [] => 0
  | v :: r => wadd (wadd (measure v) (if i + 1 < n then 2 else 0)) (measureItems (i + 1) n r)

/-- `Tuple_Length` (`rpp/tuple.h:141-149`). -/
def measureAll : List Val → Nat
  | [] => 0
  | v :: r => wadd (measure v) (measureAll r)

end

/-- `output.write(idx, "…"_v)`. -/
def putLit (s : Str) (idx : Nat) (t : List Byte) : Res (Str × Nat) := s.write idx (View.of t)

/-- `Format::snprintf` (`rpp/format.h:20-29`): prints `t` to a scratch buffer of `val_len + 1` bytes and
writes its first `val_len` bytes. -/
def putText (s : Str) (idx : Nat) (t : List Byte) : Res (Str × Nat) := do
  let buffer := View.of (t ++ [0#8])
  let b ← buffer.sub 0 t.length
  s.write idx b

/-- `Libc::snprintf(output.data() + idx, output.length() - idx, "%p", value)` (`rpp/format.h:172`): at
most `size - 1` bytes and a zero byte, nothing if `size` is 0; the result is the length of the text. -/
def snprintfAt (s : Str) (idx : Nat) (t : List Byte) : Res (Str × Nat) := do
  let size := wsub s.len idx
  if size = 0 then return (s, wadd idx t.length)
  let s ← s.copyIn idx (t.take (size - 1) ++ [0#8])
  return (s, wadd idx t.length)

/-- The enumerators equal to the value (`rpp/format.h:183-187`). -/
def writeCases (value : Int) (s : Str) (idx : Nat) : List (List Byte × Int) → Res (Str × Nat)
  | [] => .ok (s, idx)
  | (name, check) :: r => do
    let (s, idx) ← (if value = check then putLit s idx name else .ok (s, idx))
    writeCases value s idx r

/-- `Write_Type` (`rpp/function.h:135-148`). -/
def writeNames (i n : Nat) (s : Str) (idx : Nat) : List (List Byte) → Res (Str × Nat)
  | [] => .ok (s, idx)
  | t :: r => do
    let (s, idx) ← putLit s idx t
    let (s, idx) ← (if i + 1 < n then putLit s idx (lit ", ") else .ok (s, idx))
    writeNames (i + 1) n s idx r

mutual

/-- `Format::Write<A, T>::write` (`rpp/format.h:125-191`; `rpp/string1.h:169-180`; `rpp/vec.h:291-300`,
`rpp/queue.h:378-389`, `rpp/stack.h:124-135`, `rpp/heap.h:281-292`, `rpp/slice.h:164-173`,
`rpp/array.h:127-136`, `rpp/map.h:501-516`, `rpp/opt.h:147-154`, `rpp/box.h:127-134`, `rpp/ref1.h:44-51`,
`rpp/rc.h:271-291`, `rpp/pair.h:91-99`, `rpp/tuple.h:164-188`, `rpp/variant.h:231-251`,
`rpp/storage.h:101-107`, `rpp/function.h:150-164`, `rpp/vmath.h:1035-1121`). -/
def writeV (s : Str) (idx : Nat) : Val → Res (Str × Nat)
  | .void => putLit s idx (lit "void")
  | .char c => s.writeChar idx c
  | .int n => putText s idx (intText n)
  | .float t => putText s idx t
  | .bool b => if b then putLit s idx (lit "true") else putLit s idx (lit "false")
  | .ptr none => putLit s idx (lit "(null)")
  | .ptr (some t) => do
    let (s, idx) ← s.writeChar idx (ch '(')
    let (s, idx) ← snprintfAt s idx t
    s.writeChar idx (ch ')')
  | .str v => s.write idx v
  | .seq k items => do
    let (s, idx) ←
      (match k with
      | .arr => s.writeChar idx (ch '[')
      | k => putLit s idx k.openText)
    let (s, idx) ← writeItems 0 items.length s idx items
    s.writeChar idx (ch ']')
  | .map n items => do
    let (s, idx) ← putLit s idx (lit "Map[")
    let (s, idx) ← writeItems 0 n s idx items
    s.writeChar idx (ch ']')
  -- `rpp/map.h:506-510`
  | .item k v => do
    let (s, idx) ← putLit s idx (lit "{")
    let (s, idx) ← writeV s idx k
    let (s, idx) ← putLit s idx (lit " : ")
    let (s, idx) ← writeV s idx v
    s.writeChar idx (ch '}')
  | .record name fields => do
    let (s, idx) ← putLit s idx name
    let (s, idx) ← s.writeChar idx (ch '{')
    let (s, idx) ← writeItems 0 fields.length s idx fields
    s.writeChar idx (ch '}')
  -- `Record_Write` (`rpp/format.h:46-59`)
  | .field name v => do
    let (s, idx) ← putLit s idx name
    let (s, idx) ← putLit s idx (lit " : ")
    writeV s idx v
  | .enum name cases value => do
    let (s, idx) ← putLit s idx name
    let (s, idx) ← putLit s idx (lit "::")
    writeCases value s idx cases
  | .own k none => putLit s idx k.nullText
  | .own k (some v) => do
    let (s, idx) ← putLit s idx k.openText
    let (s, idx) ← writeV s idx v
    s.writeChar idx (ch '}')
  | .rc none _ => putLit s idx (lit "Rc{null}")
  | .rc (some v) refs => do
    let (s, idx) ← putLit s idx (lit "Rc[")
    let (s, idx) ← putText s idx (intText refs)
    let (s, idx) ← putLit s idx (lit "]{")
    let (s, idx) ← writeV s idx v
    s.writeChar idx (ch '}')
  | .arc none _ => putLit s idx (lit "Arc{null}")
  | .arc (some v) refs => do
    let (s, idx) ← putLit s idx (lit "Arc[")
    let (s, idx) ← putText s idx (intText refs)
    let (s, idx) ← putLit s idx (lit "]{")
    let (s, idx) ← writeV s idx v
    s.writeChar idx (ch '}')
  | .pair l r => do
    let (s, idx) ← putLit s idx (lit "Pair{")
    let (s, idx) ← writeV s idx l
    let (s, idx) ← putLit s idx (lit ", ")
    let (s, idx) ← writeV s idx r
    s.writeChar idx (ch '}')
  | .tuple items => do
    let (s, idx) ← putLit s idx (lit "Tuple{")
    let (s, idx) ← writeItems 0 items.length s idx items
    s.writeChar idx (ch '}')
  | .variant v => do
    let (s, idx) ← putLit s idx (lit "Variant{")
    let (s, idx) ← writeV s idx v
    s.writeChar idx (ch '}')
  | .named name v => do
    let (s, idx) ← putLit s idx name
    let (s, idx) ← s.writeChar idx (ch '{')
    let (s, idx) ← writeV s idx v
    s.writeChar idx (ch '}')
  | .storage name => do
    let (s, idx) ← putLit s idx (lit "Storage<")
    let (s, idx) ← putLit s idx name
    s.writeChar idx (ch '>')
  | .fn ret args => do
    let (s, idx) ← putLit s idx (lit "Function{")
    let (s, idx) ← putLit s idx ret
    let (s, idx) ← s.writeChar idx (ch '(')
    let (s, idx) ← writeNames 0 args.length s idx args
    let (s, idx) ← s.writeChar idx (ch ')')
    s.writeChar idx (ch '}')
  | .vecF items => do
    let (s, idx) ← putLit s idx (lit "Vec")
    let (s, idx) ← putText s idx (intText items.length)
    let (s, idx) ← s.writeChar idx (ch '{')
    let (s, idx) ← writeItems 0 items.length s idx items
    s.writeChar idx (ch '}')
  | .vecI signed items => do
    let (s, idx) ← putLit s idx (lit "Vec")
    let (s, idx) ← putText s idx (intText items.length)
    let (s, idx) ← (if signed then putLit s idx (lit "i{") else putLit s idx (lit "u{"))
    let (s, idx) ← writeItems 0 items.length s idx items
    s.writeChar idx (ch '}')
  | .mat4 x0 x1 x2 x3 y0 y1 y2 y3 z0 z1 z2 z3 w0 w1 w2 w3 => do
    let (s, idx) ← putLit s idx (lit "Mat4{")
    let (s, idx) ← s.writeChar idx (ch '{')
    let (s, idx) ← writeV s idx x0
    let (s, idx) ← putLit s idx (lit ", ")
    let (s, idx) ← writeV s idx x1
    let (s, idx) ← putLit s idx (lit ", ")
    let (s, idx) ← writeV s idx x2
    let (s, idx) ← putLit s idx (lit ", ")
    let (s, idx) ← writeV s idx x3
    let (s, idx) ← s.writeChar idx (ch '}')
    let (s, idx) ← putLit s idx (lit ", ")
    let (s, idx) ← s.writeChar idx (ch '{')
    let (s, idx) ← writeV s idx y0
    let (s, idx) ← putLit s idx (lit ", ")
    let (s, idx) ← writeV s idx y1
    let (s, idx) ← putLit s idx (lit ", ")
    let (s, idx) ← writeV s idx y2
    let (s, idx) ← putLit s idx (lit ", ")
    let (s, idx) ← writeV s idx y3
    let (s, idx) ← s.writeChar idx (ch '}')
    let (s, idx) ← putLit s idx (lit ", ")
    let (s, idx) ← s.writeChar idx (ch '{')
    let (s, idx) ← writeV s idx z0
    let (s, idx) ← putLit s idx (lit ", ")
    let (s, idx) ← writeV s idx z1
    let (s, idx) ← putLit s idx (lit ", ")
    let (s, idx) ← writeV s idx z2
    let (s, idx) ← putLit s idx (lit ", ")
    let (s, idx) ← writeV s idx z3
    let (s, idx) ← s.writeChar idx (ch '}')
    let (s, idx) ← putLit s idx (lit ", ")
    let (s, idx) ← s.writeChar idx (ch '{')
    let (s, idx) ← writeV s idx w0
    let (s, idx) ← putLit s idx (lit ", ")
    let (s, idx) ← writeV s idx w1
    let (s, idx) ← putLit s idx (lit ", ")
    let (s, idx) ← writeV s idx w2
    let (s, idx) ← putLit s idx (lit ", ")
    let (s, idx) ← writeV s idx w3
    let (s, idx) ← s.writeChar idx (ch '}')
    s.writeChar idx (ch '}')
  | .quat x y z w => do
    let (s, idx) ← putLit s idx (lit "Quat{")
    let (s, idx) ← writeV s idx x
    let (s, idx) ← putLit s idx (lit ", ")
    let (s, idx) ← writeV s idx y
    let (s, idx) ← putLit s idx (lit ", ")
    let (s, idx) ← writeV s idx z
    let (s, idx) ← putLit s idx (lit ", ")
    let (s, idx) ← writeV s idx w
    s.writeChar idx (ch '}')
  | .bbox x y z x' y' z' => do
    let (s, idx) ← putLit s idx (lit "BBox{{")
    let (s, idx) ← writeV s idx x
    let (s, idx) ← putLit s idx (lit ", ")
    let (s, idx) ← writeV s idx y
    let (s, idx) ← putLit s idx (lit ", ")
    let (s, idx) ← writeV s idx z
    let (s, idx) ← putLit s idx (lit "}, {")
    let (s, idx) ← writeV s idx x'
    let (s, idx) ← putLit s idx (lit ", ")
    let (s, idx) ← writeV s idx y'
    let (s, idx) ← putLit s idx (lit ", ")
    let (s, idx) ← writeV s idx z'
    putLit s idx (lit "}}")

/-- The loop of a sequence, map (`rpp/map.h:505-513`), record (`rpp/format.h:48-55`) or tuple
(`rpp/tuple.h:167-173`): at item `i`. -/
def writeItems (i n : Nat) (s : Str) (idx : Nat) : List Val → Res (Str × Nat)
  | [] => .ok (s, idx)
  | v :: r => do
    let (s, idx) ← writeV s idx v
    let (s, idx) ← (if i + 1 < n then putLit s idx (lit ", ") else .ok (s, idx))
    writeItems (i + 1) n s idx r

end

/-! ### `format` -/

/-- The loop of `parse_fmt` (`rpp/format.h:233-250`) at index `i`: the length of the literal text and the
number of placeholders. Each step advances `i`, so that `fmt.len + 1` steps are enough. -/
def parseLoop (fmt : View) : Nat → Nat → Nat → Nat → Res (Nat × Nat)
  | 0, _, _, _ => .error .hang
  | fuel + 1, i, length, args =>
    if i < fmt.len then do
      if (← fmt.at' i) = ch '%' then
        (if i + 1 < fmt.len then do
          if (← fmt.at' (i + 1)) = ch '%' then parseLoop fmt fuel (i + 2) (wadd length 1) args
          else parseLoop fmt fuel (i + 1) length (args + 1)
        else parseLoop fmt fuel (i + 1) length (args + 1))
      else parseLoop fmt fuel (i + 1) (wadd length 1) args
    else .ok (length, args)

/-- `parse_fmt` (`rpp/format.h:233-250`). -/
def parse_fmt (fmt : View) : Res (Nat × Nat) := parseLoop fmt (fmt.len + 1) 0 0 0

/-- `format_length` (`rpp/format.h:254-267`): only the version with arguments checks their number. -/
def format_length (fmt : View) (args : List Val) : Res Nat := do
  let (length, n) ← parse_fmt fmt
  match args with
  | [] => return length
  | args => if n ≠ args.length then .error .die else return wadd length (measureAll args)

/-- `Format::write` (`rpp/format.h:198-231`): the version without arguments is entered when they are used
up. -/
def writeLoop (fmt : View) : Nat → Nat → Str → Nat → List Val → Res (Str × Nat)
  | 0, _, _, _, _ => .error .hang
  | fuel + 1, i, s, idx, [] =>
    if i < fmt.len then do
      if (← fmt.at' i) = ch '%' then
        if ¬ i + 1 < fmt.len then .error .die
        if (← fmt.at' (i + 1)) ≠ ch '%' then .error .die
        let (s, idx) ← s.writeChar idx (ch '%')
        writeLoop fmt fuel (i + 2) s idx []
      else
        let (s, idx) ← s.writeChar idx (← fmt.at' i)
        writeLoop fmt fuel (i + 1) s idx []
    else .ok (s, idx)
  | fuel + 1, i, s, idx, arg :: args =>
    if i < fmt.len then do
      if (← fmt.at' i) = ch '%' then
        let escaped ← (if i + 1 < fmt.len then do return decide ((← fmt.at' (i + 1)) = ch '%')
          else return false)
        if escaped then
          let (s, idx) ← s.writeChar idx (ch '%')
          writeLoop fmt fuel (i + 2) s idx (arg :: args)
        else
          let (s, idx) ← writeV s idx arg
          writeLoop fmt fuel (i + 1) s idx args
      else
        let (s, idx) ← s.writeChar idx (← fmt.at' i)
        writeLoop fmt fuel (i + 1) s idx (arg :: args)
    else .ok (s, idx)

/-- `format` (`rpp/format.h:269-278`). -/
def format (fmt : View) (args : List Val) : Res Str := do
  let length ← format_length fmt args
  let output ← (Str.withCapacity length).set_length length
  let (output, idx) ← writeLoop fmt (fmt.len + 1) 0 output 0 args
  if idx ≠ length then .error .die
  return output

/-- The fold of `concat` (`rpp/format.h:297-299`). -/
def concatLoop (sep : View) (length : Nat) : Str → Nat → List View → Res (Str × Nat)
  | s, idx, [] => .ok (s, idx)
  | s, idx, x :: r => do
    let (s, idx) ← s.write idx x
    let (s, idx) ← (if idx < length then s.write idx sep else .ok (s, idx))
    concatLoop sep length s idx r

/-- `concat` (`rpp/format.h:285-302`). -/
def concat (sep : View) (strings : List View) : Res Str := do
  if strings.length = 0 then return ⟨[], 0⟩
  let length := (strings.map View.len).foldr wadd 0
  let length := wadd length (wmul sep.len (strings.length - 1))
  let output ← (Str.withCapacity length).set_length length
  let (output, _) ← concatLoop sep length output 0 strings
  return output

/-! ### Parsers -/

/-- `Format::enum_name` (`rpp/format1.h:10-19`): the last enumerator with the value. -/
def enum_name (cases : List (List Byte × Int)) (value : Int) : List Byte :=
  cases.foldl (fun ret c => if value = c.2 then c.1 else ret) (lit "Invalid")

/-- `isspace` of the C locale. -/
def isspace (b : Byte) : Bool :=
  b = 32#8 || b = 9#8 || b = 10#8 || b = 11#8 || b = 12#8 || b = 13#8

/-- `isdigit`. -/
def isdigit (b : Byte) : Bool := 48#8 ≤ b && b ≤ 57#8

/-- `strtoll(str, &end, 10)` of the C standard: skips white space, an optional sign, then as many digits
as there are; saturates. Returns the value and `end - str`, which is 0 if there are no digits. `str` is a
zero-terminated string; reading past its memory is undefined. -/
def strtoll (str : List Byte) : Int × Nat :=
  let ws := str.takeWhile isspace
  let r := str.drop ws.length
  let neg := r.head? = some (ch '-')
  let sign := if neg ∨ r.head? = some (ch '+') then 1 else 0
  let ds := (r.drop sign).takeWhile isdigit
  if ds = [] then (0, 0)
  else
    let m : Nat := ds.foldl (fun a d => 10 * a + (d.toNat - 48)) 0
    let v : Int := if neg then - (m : Int) else m
    (max (- 2 ^ 63) (min (2 ^ 63 - 1) v), ws.length + sign + ds.length)

/-- `parse_i64` (`rpp/format1.h:21-33`). -/
def parse_i64 (input : View) : Res (Option (Int × View)) := do
  let term ← Str.terminate input
  -- the bytes of `term`, all of them written
  let bytes ← (term.buf.mapM (fun (b : Option Byte) => match b with
    | some b => Except.ok b
    | none => Except.error Err.ub))
  let (ret, n) := strtoll bytes
  if n = 0 then return none
  let rest ← input.sub n input.len
  return some (ret, rest)

/-- The loop that skips white space (`rpp/format1.h:50-53,58-61`) from `start`. -/
def skipLoop (s : View) : Nat → Nat → Res Nat
  | 0, _ => .error .hang
  | fuel + 1, start =>
    if start < s.len then do
      if is_whitespace (← s.at' start) then skipLoop s fuel (start + 1) else return start
    else .ok start

/-- `skip_whitespace` (`rpp/format1.h:49-55`). -/
def skip_whitespace (s : View) : Res View := do
  let start ← skipLoop s (s.len + 1) 0
  s.sub start s.len

/-- The loop of `parse_string` (`rpp/format1.h:62-70`) from `i`. -/
def tokenLoop (s : View) (start : Nat) : Nat → Nat → Res (Option (View × View))
  | 0, _ => .error .hang
  | fuel + 1, i =>
    if i < s.len then do
      if i + 1 = s.len ∧ start < i then
        let tok ← s.sub start (i + 1)
        return some (tok, View.null)
      if is_whitespace (← s.at' i) then
        let tok ← s.sub start i
        let rest ← s.sub (i + 1) s.len
        return some (tok, rest)
      tokenLoop s start fuel (i + 1)
    else .ok none

/-- `parse_string` (`rpp/format1.h:57-72`). -/
def parse_string (s : View) : Res (Option (View × View)) := do
  let start ← skipLoop s (s.len + 1) 0
  tokenLoop s start (s.len + 1) start

/-- The loop over the enumerators (`rpp/format1.h:79-83`). -/
def enumLoop (name rest : View) : Option (Int × View) → List (List Byte × Int) →
    Res (Option (Int × View))
  | ret, [] => .ok ret
  | ret, (check, value) :: r => do
    let e ← name.eq (View.of check)
    enumLoop name rest (if e then some (value, rest) else ret) r

/-- `parse_enum` (`rpp/format1.h:74-86`). -/
def parse_enum (cases : List (List Byte × Int)) (s : View) : Res (Option (Int × View)) := do
  match ← parse_string s with
  | none => return none
  | some (name, rest) => enumLoop name rest none cases

end Fmt
end Rpp
