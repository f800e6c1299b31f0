import Verif.Model.Meta
import Verif.Model.Format

/-!
# Names of types (`rpp/format.h:304-436`, `rpp/function.h:166-173`)

Each call `format<A>("…%…", …)` is replaced by the text it gives (C44), `concat` by the texts with separators between them
(C45); their memory is not modelled.
-/

namespace Rpp.Typename

open Rpp.Fmt

mutual
/-- Types that have a name: `named` stands for types for which the primary template is used (arithmetic types, classes, `String<A>`,
`Named`, `FunctionN`), `inst` for instances of class templates whose parameters are types, allocators and numbers
(`rpp/format.h:370-429`), `func` for `Function<R(Args...)>`. The `name` is `Refl<T>::name`. Pointers, arrays and references are as
in `Meta.Ty`: an array is qualified if its elements are. -/
inductive Ty where
  | named (c v : Bool) (name : List Byte)
  | inst (c v : Bool) (name : List Byte) (args : Args)
  | func (c v : Bool) (ret : Ty) (args : Args)
  | ptr (c v : Bool) (t : Ty)
  | arr (t : Ty) (len : Nat)
  | lref (t : Ty)
  | rref (t : Ty)

/-- Arguments of a template: types, numbers and allocators. -/
inductive Args where
  | nil
  | ty (t : Ty) (rest : Args)
  | num (n : Nat) (rest : Args)
  | alloc (a : Nat) (rest : Args)
end

/-- The specialisations of `Typename` that are not about templates (`rpp/format.h:306-368`). -/
def pats : List Meta.Pat := [.any, .const, .vol, .cv, .lref, .rref, .ptr, .arr]

/-- The type as the model of partial specialisation sees it: named types and instances without their names. The
specialisations for instances of templates match no qualified type, pointer, array or reference. -/
def skel : Ty → Meta.Ty
  | .named c v _ => .base c v 0
  | .inst c v _ _ => .base c v 0
  | .func c v _ _ => .base c v 0
  | .ptr c v t => .ptr c v (skel t)
  | .arr t n => .arr (skel t) n
  | .lref t => .lref (skel t)
  | .rref t => .rref (skel t)

/-- The text of the specialisations for `const T`, `volatile T` and `const volatile T` (`rpp/format.h:314-336`) around the name of
`T`. -/
def qualified (c v : Bool) (s : List Byte) : List Byte :=
  if c && v then lit "const volatile " ++ s else if c then lit "const " ++ s else if v then lit "volatile " ++ s else s

/-- `concat(", ", …)` (`rpp/format.h:285-302`). -/
def commas : List (List Byte) → List Byte
  | [] => []
  | [s] => s
  | s :: l => s ++ lit ", " ++ commas l

mutual
/-- `Typename<T>::name` (`rpp/format.h:306-429`, `rpp/function.h:166-173`). `none`: the choice of the specialisation is ambiguous and
the program does not compile. `C141_selected` says that the specialisation used here is the one the compiler selects. -/
def name : Ty → Option (List Byte)
  | .named c v n => some (qualified c v n)
  | .inst c v n args =>
    match names args with
    | none => none
    | some l => some (qualified c v (n ++ lit "<" ++ commas l ++ lit ">"))
  | .func c v ret args =>
    match name ret, names args with
    | some r, some l => some (qualified c v (lit "Function<" ++ r ++ lit "(" ++ commas l ++ lit ")>"))
    | _, _ => none
  | .ptr c v t =>
    match name t with
    | none => none
    | some s => some (qualified c v (s ++ lit "*"))
  | .arr t n =>
    if (skel t).isConst || (skel t).isVol then none
    else
      match name t with
      | none => none
      | some s => some (s ++ lit "[" ++ digits 20 n ++ lit "]")
  | .lref t =>
    match name t with
    | none => none
    | some s => some (s ++ lit "&")
  | .rref t =>
    match name t with
    | none => none
    | some s => some (s ++ lit "&&")
/-- The names of the arguments; those of allocators are left out. -/
def names : Args → Option (List (List Byte))
  | .nil => some []
  | .ty t rest =>
    match name t, names rest with
    | some s, some l => some (s :: l)
    | _, _ => none
  | .num n rest =>
    match names rest with
    | none => none
    | some l => some (digits 20 n :: l)
  | .alloc _ rest => names rest
end

end Rpp.Typename
