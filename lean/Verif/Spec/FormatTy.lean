import Verif.Spec.Format

/-! The values of a formattable type whose text shows all of the value. -/

namespace Rpp
namespace Spec
open Rpp.Fmt

/-- Formattable types without strings, floating point numbers and pointers. -/
inductive FTy where
  | void
  | bool
  | int
  | char
  | enum (name : List Byte) (cases : List (List Byte × Int))
  | seq (k : Seq) (t : FTy)
  | map (k v : FTy)
  | own (k : Ptr) (t : FTy)
  | rc (t : FTy)
  | arc (t : FTy)
  | pair (a b : FTy)
  | tuple (ts : List FTy)
  | record (name : List Byte) (fields : List FTy)
  | field (name : List Byte) (t : FTy)
  | named (name : List Byte) (t : FTy)
  | variant (alts : List FTy)
  | vecI (signed : Bool) (n : Nat)

/-- An integer of at most 64 bits. -/
def Whole64 (n : Int) : Prop := - 2 ^ 63 ≤ n ∧ n < 2 ^ 64

mutual

/-- The values of a type. Enumerations hold one of their enumerators, a null `Rc` has no references, the length of a map is the number of its
entries. -/
def HasTy : FTy → Val → Prop
  | .void, v => v = .void
  | .bool, v => ∃ b, v = .bool b
  | .int, v => ∃ n, v = .int n ∧ Whole64 n
  | .char, v => ∃ c, v = .char c
  | .enum name cases, v => ∃ n x, v = .enum name cases x ∧ (n, x) ∈ cases
  | .seq k t, v => ∃ l, v = .seq k l ∧ ∀ x ∈ l, HasTy t x
  | .map k t, v => ∃ l, v = .map l.length l ∧ ∀ x ∈ l, ∃ a b, x = .item a b ∧ HasTy k a ∧ HasTy t b
  | .own k t, v => v = .own k none ∨ ∃ x, v = .own k (some x) ∧ HasTy t x
  | .rc t, v => v = .rc none 0 ∨ ∃ x n, v = .rc (some x) n ∧ 0 ≤ n ∧ n < 2 ^ 64 ∧ HasTy t x
  | .arc t, v => v = .arc none 0 ∨ ∃ x n, v = .arc (some x) n ∧ 0 ≤ n ∧ n < 2 ^ 64 ∧ HasTy t x
  | .pair a b, v => ∃ x y, v = .pair x y ∧ HasTy a x ∧ HasTy b y
  | .tuple ts, v => ∃ l, v = .tuple l ∧ HasAll ts l
  | .record name ts, v => ∃ l, v = .record name l ∧ HasAll ts l
  | .field name t, v => ∃ x, v = .field name x ∧ HasTy t x
  | .named name t, v => ∃ x, v = .named name x ∧ HasTy t x
  | .variant ts, v => ∃ x, v = .variant x ∧ HasOne ts x
  | .vecI s n, v => ∃ l, v = .vecI s l ∧ l.length = n ∧ ∀ x ∈ l, ∃ k, x = .int k ∧ Whole64 k

/-- One value of each of the types. -/
def HasAll : List FTy → List Val → Prop
  | [], l => l = []
  | t :: ts, l => ∃ x r, l = x :: r ∧ HasTy t x ∧ HasAll ts r

/-- A value of one of the types. -/
def HasOne : List FTy → Val → Prop
  | [], _ => False
  | t :: ts, v => HasTy t v ∨ HasOne ts v

end

/-- A name as the reflection macros make them: not empty, and without spaces, commas and brackets. -/
def Word (n : List Byte) : Prop := n ≠ [] ∧ ∀ b ∈ n, b ∉ lit " ,[]{}"

/-- The name of an alternative of a variant made with `Named`. -/
def FTy.alt : FTy → Option (List Byte)
  | .named n _ => some n
  | _ => none

mutual

/-- Types as the library has them: names are words; the enumerators of an enumeration have different names and values; the alternatives of a
variant are `Named` with different names; items of a sequence are not single characters. -/
def FTy.OK : FTy → Prop
  | .enum name cases => Word name ∧ (∀ c ∈ cases, Word c.1) ∧ (cases.map Prod.fst).Nodup ∧ (cases.map Prod.snd).Nodup
  | .seq _ t => t.OK ∧ t ≠ .char
  | .map k v => k.OK ∧ v.OK
  | .own _ t => t.OK
  | .rc t => t.OK
  | .arc t => t.OK
  | .pair a b => a.OK ∧ b.OK
  | .tuple ts => OKAll ts
  | .record name ts => Word name ∧ OKAll ts
  | .field name t => Word name ∧ t.OK
  | .named name t => Word name ∧ t.OK
  | .variant ts => OKAll ts ∧ (∀ t ∈ ts, t.alt ≠ none) ∧ (ts.map FTy.alt).Nodup
  | .vecI _ n => n < 2 ^ 64
  | .void => True
  | .bool => True
  | .int => True
  | .char => True

/-- `OK` of each of the types. -/
def OKAll : List FTy → Prop
  | [] => True
  | t :: ts => t.OK ∧ OKAll ts

end

end Spec
end Rpp
