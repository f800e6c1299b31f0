import Verif.Model.Format
import Verif.Spec.Str

/-! What formatted text is, as plain byte lists. -/

namespace Rpp
namespace Spec
open Rpp.Fmt

/-- Items with a separator between each two. -/
def join (sep : List Byte) : List (List Byte) → List Byte
  | [] => []
  | [x] => x
  | x :: y :: r => x ++ sep ++ join sep (y :: r)

/-- The rendering of an integer. -/
def decimal (n : Int) : List Byte := lit (toString n)

mutual

/-- The text of a value. -/
def render : Val → List Byte
  | .void => lit "void"
  | .char c => [c]
  | .int n => decimal n
  | .float t => t
  | .bool b => lit (if b then "true" else "false")
  | .ptr none => lit "(null)"
  | .ptr (some t) => lit "(" ++ t ++ lit ")"
  | .str v => v.bytes
  | .seq .arr items => lit "[" ++ join (lit ", ") (renderAll items) ++ lit "]"
  | .seq .vec items => lit "Vec[" ++ join (lit ", ") (renderAll items) ++ lit "]"
  | .seq .queue items => lit "Queue[" ++ join (lit ", ") (renderAll items) ++ lit "]"
  | .seq .stack items => lit "Stack[" ++ join (lit ", ") (renderAll items) ++ lit "]"
  | .seq .heap items => lit "Heap[" ++ join (lit ", ") (renderAll items) ++ lit "]"
  | .seq .slice items => lit "Slice[" ++ join (lit ", ") (renderAll items) ++ lit "]"
  | .map _ items => lit "Map[" ++ join (lit ", ") (renderAll items) ++ lit "]"
  | .item k v => lit "{" ++ render k ++ lit " : " ++ render v ++ lit "}"
  | .record name fields => name ++ lit "{" ++ join (lit ", ") (renderAll fields) ++ lit "}"
  | .field name v => name ++ lit " : " ++ render v
  | .enum name cases value =>
    name ++ lit "::" ++ ((cases.filter (fun c => c.2 = value)).map Prod.fst).flatten
  | .own .opt (some v) => lit "Opt{" ++ render v ++ lit "}"
  | .own .opt none => lit "Opt{None}"
  | .own .box (some v) => lit "Box{" ++ render v ++ lit "}"
  | .own .box none => lit "Box{null}"
  | .own .ref (some v) => lit "Ref{" ++ render v ++ lit "}"
  | .own .ref none => lit "Ref{null}"
  | .rc (some v) refs => lit "Rc[" ++ decimal refs ++ lit "]{" ++ render v ++ lit "}"
  | .rc none _ => lit "Rc{null}"
  | .arc (some v) refs => lit "Arc[" ++ decimal refs ++ lit "]{" ++ render v ++ lit "}"
  | .arc none _ => lit "Arc{null}"
  | .pair l r => lit "Pair{" ++ render l ++ lit ", " ++ render r ++ lit "}"
  | .tuple items => lit "Tuple{" ++ join (lit ", ") (renderAll items) ++ lit "}"
  | .variant v => lit "Variant{" ++ render v ++ lit "}"
  | .named name v => name ++ lit "{" ++ render v ++ lit "}"
  | .storage name => lit "Storage<" ++ name ++ lit ">"
  | .fn ret args => lit "Function{" ++ ret ++ lit "(" ++ join (lit ", ") args ++ lit ")}"
  | .vecF items =>
    lit "Vec" ++ decimal items.length ++ lit "{" ++ join (lit ", ") (renderAll items) ++ lit "}"
  | .vecI signed items =>
    lit "Vec" ++ decimal items.length ++ lit (if signed then "i{" else "u{") ++
      join (lit ", ") (renderAll items) ++ lit "}"
  | .mat4 x0 x1 x2 x3 y0 y1 y2 y3 z0 z1 z2 z3 w0 w1 w2 w3 =>
    lit "Mat4{" ++ join (lit ", ")
      [lit "{" ++ join (lit ", ") [render x0, render x1, render x2, render x3] ++ lit "}",
       lit "{" ++ join (lit ", ") [render y0, render y1, render y2, render y3] ++ lit "}",
       lit "{" ++ join (lit ", ") [render z0, render z1, render z2, render z3] ++ lit "}",
       lit "{" ++ join (lit ", ") [render w0, render w1, render w2, render w3] ++ lit "}"] ++ lit "}"
  | .quat x y z w => lit "Quat{" ++ join (lit ", ") [render x, render y, render z, render w] ++ lit "}"
  | .bbox x y z x' y' z' =>
    lit "BBox{{" ++ join (lit ", ") [render x, render y, render z] ++ lit "}, {" ++
      join (lit ", ") [render x', render y', render z'] ++ lit "}}"

/-- The texts of several values. -/
def renderAll : List Val → List (List Byte)
  | [] => []
  | v :: r => render v :: renderAll r

end

mutual

/-- `P` holds of every part of the value. -/
def Every (P : Val → Prop) : Val → Prop
  | .void => P .void
  | .char c => P (.char c)
  | .int n => P (.int n)
  | .float t => P (.float t)
  | .bool b => P (.bool b)
  | .ptr t => P (.ptr t)
  | .str v => P (.str v)
  | .seq k items => P (.seq k items) ∧ EveryOf P items
  | .map n items => P (.map n items) ∧ EveryOf P items
  | .item k v => P (.item k v) ∧ Every P k ∧ Every P v
  | .record name fields => P (.record name fields) ∧ EveryOf P fields
  | .field name v => P (.field name v) ∧ Every P v
  | .enum name cases value => P (.enum name cases value)
  | .own k none => P (.own k none)
  | .own k (some v) => P (.own k (some v)) ∧ Every P v
  | .rc none refs => P (.rc none refs)
  | .rc (some v) refs => P (.rc (some v) refs) ∧ Every P v
  | .arc none refs => P (.arc none refs)
  | .arc (some v) refs => P (.arc (some v) refs) ∧ Every P v
  | .pair l r => P (.pair l r) ∧ Every P l ∧ Every P r
  | .tuple items => P (.tuple items) ∧ EveryOf P items
  | .variant v => P (.variant v) ∧ Every P v
  | .named name v => P (.named name v) ∧ Every P v
  | .storage name => P (.storage name)
  | .fn ret args => P (.fn ret args)
  | .vecF items => P (.vecF items) ∧ EveryOf P items
  | .vecI signed items => P (.vecI signed items) ∧ EveryOf P items
  | .mat4 x0 x1 x2 x3 y0 y1 y2 y3 z0 z1 z2 z3 w0 w1 w2 w3 =>
    P (.mat4 x0 x1 x2 x3 y0 y1 y2 y3 z0 z1 z2 z3 w0 w1 w2 w3) ∧
    (Every P x0 ∧ Every P x1 ∧ Every P x2 ∧ Every P x3) ∧
    (Every P y0 ∧ Every P y1 ∧ Every P y2 ∧ Every P y3) ∧
    (Every P z0 ∧ Every P z1 ∧ Every P z2 ∧ Every P z3) ∧
    (Every P w0 ∧ Every P w1 ∧ Every P w2 ∧ Every P w3)
  | .quat x y z w => P (.quat x y z w) ∧ Every P x ∧ Every P y ∧ Every P z ∧ Every P w
  | .bbox x y z x' y' z' => P (.bbox x y z x' y' z') ∧
    (Every P x ∧ Every P y ∧ Every P z) ∧ (Every P x' ∧ Every P y' ∧ Every P z')

/-- `Every` of each value of a list. -/
def EveryOf (P : Val → Prop) : List Val → Prop
  | [] => True
  | v :: r => Every P v ∧ EveryOf P r

end

/-- What a value of the C++ types satisfies anyway: strings are in memory, the lengths that `snprintf`
returns are positive `i32`s, integers have at most 64 bits. -/
def ValidPart : Val → Prop
  | .str v => v.Valid
  | .float t => t.length < 2 ^ 31
  | .ptr (some t) => t.length < 2 ^ 31
  | .int n => - 2 ^ 63 ≤ n ∧ n < 2 ^ 64
  | .rc _ n => 0 ≤ n ∧ n < 2 ^ 64
  | .arc _ n => 0 ≤ n ∧ n < 2 ^ 64
  | .vecF items => items.length < 2 ^ 64
  | .vecI _ items => items.length < 2 ^ 64
  | _ => True

/-- The `length()` of a map is the number of its elements. -/
def CountedPart : Val → Prop
  | .map n items => n = items.length
  | _ => True

/-- `fmt` with `%%` replaced by `%` and each other `%` by the next argument; nothing if the number of
placeholders is not the number of arguments. -/
def subst : List Byte → List (List Byte) → Option (List Byte)
  | [], [] => some []
  | [], _ :: _ => none
  | c :: r, args =>
    if c = ch '%' then
      match r with
      | [] => match args with
        | [a] => some a
        | _ => none
      | d :: r' =>
        if d = ch '%' then (subst r' args).map (ch '%' :: ·)
        else match args with
          | [] => none
          | a :: args => (subst (d :: r') args).map (a ++ ·)
    else (subst r args).map (c :: ·)

/-- White space, for the parsers: blank, `\t`, `\n`, `\v`, `\r`. -/
def White (b : Byte) : Prop := b ∈ [32#8, 9#8, 10#8, 11#8, 13#8]

end Spec
end Rpp
