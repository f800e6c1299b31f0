import Verif.Model.Mem

/-!
# Model: compile-time computations on types

`rpp/utility.h:10-655`, `rpp/reflect.h:95-259`. Template parameter packs are lists; class template partial
specialisation is modelled by patterns (`Pat`), the choice of the most specialised one included. A program the compiler
rejects is `none`.
-/

namespace Rpp.Meta

/-! ## Packs and type lists -/

section Packs
variable {τ : Type} [DecidableEq τ]

/-- `detail::All_Same` (`rpp/utility.h:278-294`). -/
def allSame : List τ → Bool
  | l :: r :: ts => decide (l = r) && allSame (r :: ts)
  | [_] => true
  | [] => true

/-- `detail::All_Are` (`rpp/utility.h:296-312`). -/
def allAre (q : τ) : List τ → Bool
  | [] => true
  | [t] => decide (q = t)
  | t :: ts => decide (q = t) && allAre q ts

/-- `detail::One_Is` (`rpp/utility.h:314-330`). -/
def oneIs (q : τ) : List τ → Bool
  | [] => false
  | [t] => decide (q = t)
  | t :: ts => decide (q = t) || oneIs q ts

/-- `detail::Choose` (`rpp/utility.h:345-356`); there is no specialisation for the empty pack. -/
def choose : Nat → List τ → Option τ
  | _, [] => none
  | 0, t :: _ => some t
  | i + 1, _ :: ts => choose i ts

/-- `detail::Index_Of` (`rpp/utility.h:358-370`); without `t` in the pack the constraint fails. -/
def indexOf (t : τ) : List τ → Option Nat
  | [] => none
  | h :: ts => if t = h then some 0 else (indexOf t ts).map (1 + ·)

/-- `detail::Distinct` (`rpp/utility.h:372-389`). -/
def distinct : List τ → Bool
  | l :: r :: ts => !oneIs l (r :: ts) && distinct (r :: ts)
  | [_] => true
  | [] => true

end Packs

/-- `detail::Nil`, `detail::Cons` (`rpp/reflect.h:100-106`). -/
inductive TList (τ : Type) where
  | nil
  | cons (head : τ) (tail : TList τ)
deriving DecidableEq

section Lists
variable {τ : Type}

/-- `detail::Make` (`rpp/reflect.h:123-134`). -/
def make : List τ → TList τ
  | [] => .nil
  | t :: ts => .cons t (make ts)

/-- `detail::All` (`rpp/reflect.h:136-148`). -/
def all (f : τ → Bool) : TList τ → Bool
  | .nil => true
  | .cons h t => f h && all f t

/-- `detail::Length` (`rpp/reflect.h:176-187`). -/
def length : TList τ → Nat
  | .nil => 0
  | .cons _ t => 1 + length t

/-- `detail::Rerverse` (`rpp/reflect.h:189-200`). -/
def reverseAcc : TList τ → TList τ → TList τ
  | .nil, acc => acc
  | .cons h t, acc => reverseAcc t (.cons h acc)

/-- `Reverse` (`rpp/reflect.h:223-224`). -/
def reverse (l : TList τ) : TList τ := reverseAcc l .nil

/-- `detail::Enumerated` (`rpp/reflect.h:202-213`). -/
def enumerated : Nat → List τ → TList Nat
  | _, [] => .nil
  | n, _ :: ts => .cons n (enumerated (n + 1) ts)

/-- `detail::Iter::apply` (`rpp/reflect.h:150-174`) on an object with state `s`. -/
def iter {σ : Type} (f : τ → σ → σ) : TList τ → σ → σ
  | .nil, s => s
  | .cons h t, s => iter f t (f h s)

end Lists

/-! ## Types and partial specialisation -/

/-- C++ types: named types, pointers (each perhaps `const`, `volatile`), arrays and references. An array is `const` if its
elements are. Functions, member pointers and arrays of unknown length are left out. -/
inductive Ty where
  | base (c v : Bool) (n : Nat)
  | ptr (c v : Bool) (t : Ty)
  | arr (t : Ty) (len : Nat)
  | lref (t : Ty)
  | rref (t : Ty)
deriving DecidableEq

namespace Ty

/-- Is the type `const`? -/
def isConst : Ty → Bool
  | base c _ _ => c
  | ptr c _ _ => c
  | arr t _ => t.isConst
  | lref _ => false
  | rref _ => false

/-- Is the type `volatile`? -/
def isVol : Ty → Bool
  | base _ v _ => v
  | ptr _ v _ => v
  | arr t _ => t.isVol
  | lref _ => false
  | rref _ => false

/-- The type `T` with `const T` equal to the given one. -/
def dropConst : Ty → Ty
  | base _ v n => base false v n
  | ptr _ v t => ptr false v t
  | arr t n => arr t.dropConst n
  | t => t

/-- The type `T` with `volatile T` equal to the given one. -/
def dropVol : Ty → Ty
  | base c _ n => base c false n
  | ptr c _ t => ptr c false t
  | arr t n => arr t.dropVol n
  | t => t

/-- There are no references to references, pointers to references and arrays of references. -/
def ok : Ty → Bool
  | base _ _ _ => true
  | ptr _ _ t | arr t _ => match t with
    | lref _ | rref _ => false
    | t => t.ok
  | lref t | rref t => match t with
    | lref _ | rref _ => false
    | t => t.ok

end Ty

/-- The argument lists of the partial specialisations used: `T`, `const T`, `volatile T`, `const volatile T`, `T&`, `T&&`,
`T*`, `const T*`, `T[N]`, `const T[N]`. -/
inductive Pat where
  | any | const | vol | cv | lref | rref | ptr | ptrConst | arr | arrConst
deriving DecidableEq

/-- Deduction of `T`: `none` if the pattern does not match. -/
def Pat.deduce : Pat → Ty → Option Ty
  | .any, t => some t
  | .const, t => if t.isConst then some t.dropConst else none
  | .vol, t => if t.isVol then some t.dropVol else none
  | .cv, t => if t.isConst && t.isVol then some t.dropConst.dropVol else none
  | .lref, .lref t => some t
  | .rref, .rref t => some t
  | .ptr, .ptr false false t => some t
  | .ptrConst, .ptr false false t => if t.isConst then some t.dropConst else none
  | .arr, .arr t _ => some t
  | .arrConst, .arr t _ => if t.isConst then some t.dropConst else none
  | _, _ => none

/-- Partial ordering of the patterns: the first is at least as specialised as the second. `C118_specialised` says that it is
the right one. -/
def Pat.le : Pat → Pat → Bool
  | _, .any => true
  | .cv, .const | .cv, .vol => true
  | .ptrConst, .ptr => true
  | .arrConst, .arr | .arrConst, .const => true
  | p, q => decide (p = q)

/-- The specialisation chosen among `ps`: the matching one that is at least as specialised as all matching ones. `none`:
ambiguous, or no match. -/
def select (ps : List Pat) (t : Ty) : Option Pat :=
  let m := ps.filter fun p => (p.deduce t).isSome
  m.find? fun p => m.all fun q => p.le q

/-- The primary template and specialisations of `detail::Decay` (`rpp/utility.h:237-260`). -/
def decayPats : List Pat := [.any, .const, .vol, .lref, .rref]

/-- A bound on the depth of instantiation. -/
def Ty.size : Ty → Nat
  | .base _ _ _ => 3
  | .ptr _ _ t => 3 + t.size
  | .arr t _ => 3 + t.size
  | .lref t => 1 + t.size
  | .rref t => 1 + t.size

/-- `detail::Decay` (`rpp/utility.h:237-260`): `.ok none` if it does not compile. -/
def decayF : Nat → Ty → Res (Option Ty)
  | 0, _ => .error .hang
  | f + 1, t =>
    match select decayPats t with
    | none => .ok none
    | some .any => .ok (some t)
    | some p =>
      match p.deduce t with
      | some t' => decayF f t'
      | none => .ok none

/-- `Decay<T>`. -/
def decay (t : Ty) : Res (Option Ty) := decayF (t.size + 1) t

/-- `Reflect::Kind` (`rpp/reflect.h:75-93`), without the distinction of the arithmetic types. -/
inductive Kind where
  | plain (n : Nat)
  | array
  | pointer
  | enum
  | record
deriving DecidableEq

/-- The partial specialisations of `Refl` (`rpp/reflect.h:353-406`). The primary template is not defined. -/
def reflPats : List Pat := [.const, .vol, .cv, .lref, .rref, .ptr, .ptrConst, .arr, .arrConst]

/-- `Refl<T>`'s name and kind: `.ok none` if it does not compile. `tab` are the explicit specialisations, for types without
qualifiers; `N` are the names. -/
def reflF {N : Type} (tab : Nat → Option (N × Kind)) : Nat → Ty → Res (Option (N × Kind))
  | 0, _ => .error .hang
  | f + 1, t =>
    match t with
    | .base false false n => .ok (tab n)
    | t =>
      match select reflPats t with
      | none => .ok none
      | some p =>
        match p.deduce t with
        | none => .ok none
        | some t' =>
          match reflF tab f t' with
          | .error e => .error e
          | .ok none => .ok none
          | .ok (some (n, k)) =>
            match p with
            | .ptr | .ptrConst => .ok (some (n, .pointer))
            | .arr | .arrConst => .ok (some (n, .array))
            | _ => .ok (some (n, k))

/-- `Refl<T>`. -/
def refl {N : Type} (tab : Nat → Option (N × Kind)) (t : Ty) : Res (Option (N × Kind)) := reflF tab (t.size + 1) t

/-! ## Concepts -/

/-- The members of a specialisation of `Refl`: their types, where there are any. -/
structure Info where
  name : Option Ty
  kind : Option Kind
  underlying : Option Ty
  members : Option (List Info)
  default_ : Option Ty

/-- The named types used below. -/
def literalTy : Ty := .base false false 1000
def u64Ty : Ty := .base false false 1001

/-- What the simple requirement `e;` asks for: that `e` is well-formed, here that the members it names exist. Its value plays
no role. -/
def simple (needs : List Bool) : Bool := needs.all id

/-- What the compound requirement `{ e } -> Same<T>;` asks for, `e` naming a `constexpr static` member of type `t`: that
`decltype((e))`, a reference to const as `e` is an lvalue, is `T`. -/
def compound (t : Ty) (want : Ty) : Bool :=
  let q := match t with
    | .base _ v n => Ty.base true v n
    | .ptr _ v u => Ty.ptr true v u
    | t => t
  decide (Ty.lref q = want)

/-- `Reflectable` (`rpp/reflect.h:255-259`). -/
def reflectable (i : Info) : Bool := simple [i.name.isSome] && simple [i.kind.isSome]

/-- `Enum` (`rpp/reflect.h:285-292`): five simple requirements. -/
def isEnum (i : Info) : Bool :=
  simple [] && simple [i.underlying.isSome] && simple [i.members.isSome] && simple [i.default_.isSome] && simple [i.kind.isSome]

/-- `Record` (`rpp/reflect.h:294-299`): three simple requirements. -/
def isRecord (i : Info) : Bool := simple [] && simple [i.members.isSome] && simple [i.kind.isSome]

/-- `Enum_Case` (`rpp/reflect.h:261-266`) of a `Case` (241-246): `name` is a `Literal`, `value` of the type `e`. -/
def enumCase (e : Ty) : Bool := simple [] && compound literalTy literalTy && compound e e

/-- `Record_Field` (`rpp/reflect.h:273-278`) of a `Field` (248-253). -/
def recordField : Bool := simple [] && compound literalTy literalTy && compound u64Ty u64Ty

/-- What the macro `RPP_ENUM` defines for an enumeration (`rpp/reflect.h:15-35`). -/
def ofEnum (e u : Ty) (cases : List Info) : Info :=
  { name := some literalTy, kind := some .enum, underlying := some u, members := some cases, default_ := some e }

/-- What the macro `RPP_RECORD` defines for a record (`rpp/reflect.h:37-69`). -/
def ofRecord (fields : List Info) : Info :=
  { name := some literalTy, kind := some .record, underlying := none, members := some fields, default_ := none }

/-- The specialisations for arithmetic types, `void` and `bool` (`rpp/reflect.h:408-490`). -/
def ofPlain (n : Nat) : Info :=
  { name := some literalTy, kind := some (.plain n), underlying := none, members := none, default_ := none }

/-- The specialisations for pointers and arrays (`rpp/reflect.h:378-406`). -/
def ofPointer (k : Kind) (u : Ty) : Info :=
  { name := some literalTy, kind := some k, underlying := some u, members := none, default_ := none }

/-! ## Literals -/

/-- `Literal` (`rpp/utility.h:602-628`) made from an array of characters, the terminator included: at most 32, filled
with zeros. Longer ones do not compile. -/
def literal (s : List UInt8) : Option (List UInt8) :=
  if s.length ≤ 32 then some (s ++ List.replicate (32 - s.length) 0) else none

/-- `operator==` (`rpp/utility.h:615-622`). -/
def literalEq (a b : List UInt8) : Nat → Bool
  | 0 => true
  | n + 1 => if a[31 - n]? ≠ b[31 - n]? then false else literalEq a b n

end Rpp.Meta
