import Verif.Model.Typename

/-!
# Specification: what a name says, and how C++ writes types

Of the model only the types `Ty` and `Args` are used.
-/

namespace Rpp.Spec.Typename

open Rpp Rpp.Typename Rpp.Fmt

/-! ## What a name says -/

/-- Words in front. -/
inductive Word where
  | const | volatile
deriving DecidableEq

/-- Signs behind. -/
inductive Sign where
  | star | amp | ampamp | dim (n : Nat)
deriving DecidableEq

mutual
/-- A name taken apart: the words in front, what is in the middle and the signs behind. -/
inductive Flat where
  | mk (words : List Word) (core : Core) (signs : List Sign)
inductive Core where
  | named (name : List Byte)
  | inst (name : List Byte) (args : FArgs)
  | func (ret : Flat) (args : FArgs)
inductive FArgs where
  | nil
  | ty (f : Flat) (rest : FArgs)
  | num (n : Nat) (rest : FArgs)
end

/-- The words of qualifiers. -/
def words (c v : Bool) : List Word := (if c then [.const] else []) ++ (if v then [.volatile] else [])

/-- More words in front. -/
def Flat.front (ws : List Word) : Flat → Flat
  | .mk us x ss => .mk (ws ++ us) x ss

/-- One more sign behind. -/
def Flat.back (s : Sign) : Flat → Flat
  | .mk us x ss => .mk us x (ss ++ [s])

mutual
/-- What the name of a type says: all qualifiers go to the very front, wherever they belong; signs go to the end;
allocators are not mentioned. -/
def says : Ty → Flat
  | .named c v n => .mk (words c v) (.named n) []
  | .inst c v n args => .mk (words c v) (.inst n (saysArgs args)) []
  | .func c v r args => .mk (words c v) (.func (says r) (saysArgs args)) []
  | .ptr c v t => ((says t).back .star).front (words c v)
  | .arr t n => (says t).back (.dim n)
  | .lref t => (says t).back .amp
  | .rref t => (says t).back .ampamp
def saysArgs : Args → FArgs
  | .nil => .nil
  | .ty t rest => .ty (says t) (saysArgs rest)
  | .num n rest => .num n (saysArgs rest)
  | .alloc _ rest => saysArgs rest
end

/-! ## Types with proper names -/

/-- A byte of an identifier, or a colon. -/
def IdByte (b : Byte) : Prop :=
  (48 ≤ b.toNat ∧ b.toNat ≤ 58) ∨ (65 ≤ b.toNat ∧ b.toNat ≤ 90) ∨ b.toNat = 95 ∨ (97 ≤ b.toNat ∧ b.toNat ≤ 122)

/-- An identifier, perhaps with namespaces: not empty, of letters, digits, underscores and colons, not beginning with a digit. -/
def Ident (n : List Byte) : Prop :=
  (∀ b ∈ n, IdByte b) ∧ ∃ b l, n = b :: l ∧ ¬ (48 ≤ b.toNat ∧ b.toNat ≤ 57)

/-- Is the type a reference? -/
def IsRef : Ty → Prop
  | .lref _ => True
  | .rref _ => True
  | _ => False

mutual
/-- The type exists, its names are identifiers, and no template but the library's is named `Function`. -/
def Proper : Ty → Prop
  | .named _ _ n => Ident n
  | .inst _ _ n args => Ident n ∧ n ≠ lit "Function" ∧ ProperArgs args
  | .func _ _ r args => Proper r ∧ ProperArgs args
  | .ptr _ _ t => Proper t ∧ ¬ IsRef t
  | .arr t n => Proper t ∧ ¬ IsRef t ∧ n < 2 ^ 64
  | .lref t => Proper t ∧ ¬ IsRef t
  | .rref t => Proper t ∧ ¬ IsRef t
def ProperArgs : Args → Prop
  | .nil => True
  | .ty t rest => Proper t ∧ ProperArgs rest
  | .num n rest => n < 2 ^ 64 ∧ ProperArgs rest
  | .alloc _ rest => ProperArgs rest
end

/-- The type is qualified; an array is if its elements are. -/
def Qualified : Ty → Prop
  | .named c v _ => c = true ∨ v = true
  | .inst c v _ _ => c = true ∨ v = true
  | .func c v _ _ => c = true ∨ v = true
  | .ptr c v _ => c = true ∨ v = true
  | .arr t _ => Qualified t
  | .lref _ => False
  | .rref _ => False

mutual
/-- No array in the type has qualified elements. -/
def NoQualArray : Ty → Prop
  | .named _ _ _ => True
  | .inst _ _ _ args => NoQualArrays args
  | .func _ _ r args => NoQualArray r ∧ NoQualArrays args
  | .ptr _ _ t => NoQualArray t
  | .arr t _ => ¬ Qualified t ∧ NoQualArray t
  | .lref t => NoQualArray t
  | .rref t => NoQualArray t
def NoQualArrays : Args → Prop
  | .nil => True
  | .ty t rest => NoQualArray t ∧ NoQualArrays rest
  | .num _ rest => NoQualArrays rest
  | .alloc _ rest => NoQualArrays rest
end

mutual
/-- No pointer in the type is itself qualified, and no template has an allocator among its arguments. -/
def Simple : Ty → Prop
  | .named _ _ _ => True
  | .inst _ _ _ args => Simples args
  | .func _ _ r args => Simple r ∧ Simples args
  | .ptr c v t => c = false ∧ v = false ∧ Simple t
  | .arr t _ => Simple t
  | .lref t => Simple t
  | .rref t => Simple t
def Simples : Args → Prop
  | .nil => True
  | .ty t rest => Simple t ∧ Simples rest
  | .num _ rest => Simples rest
  | .alloc _ _ => False
end

/-! ## One step of a name -/

/-- The type without its outermost `const`. -/
def unconst : Ty → Ty
  | .named _ v n => .named false v n
  | .inst _ v n a => .inst false v n a
  | .func _ v r a => .func false v r a
  | .ptr _ v t => .ptr false v t
  | t => t

/-- The type without its outermost `volatile`. -/
def unvol : Ty → Ty
  | .named c _ n => .named c false n
  | .inst c _ n a => .inst c false n a
  | .func c _ r a => .func c false r a
  | .ptr c _ t => .ptr c false t
  | t => t

/-- What a pointer, array or reference is made of. -/
def inner : Ty → Ty
  | .ptr _ _ t => t
  | .arr t _ => t
  | .lref t => t
  | .rref t => t
  | t => t

/-- Length of an array. -/
def dimension : Ty → Nat
  | .arr _ n => n
  | _ => 0

/-! ## How C++ writes types -/

/-- Qualifiers in front of a name. -/
def front (c v : Bool) : List Byte := (if c then lit "const " else []) ++ (if v then lit "volatile " else [])

/-- Qualifiers behind a star. -/
def behind (c v : Bool) : List Byte := (if c then lit " const" else []) ++ (if v then lit " volatile" else [])

/-- Is the type an array? -/
def isArr : Ty → Bool
  | .arr _ _ => true
  | _ => false

/-- A declarator, in parentheses if what it points or refers to is an array. -/
def paren (t : Ty) (d : List Byte) : List Byte := if isArr t then lit "(" ++ d ++ lit ")" else d

/-- Decimal digits (`Nat.toDigits` of the core library). -/
def decimal (n : Nat) : List Byte := (Nat.toDigits 10 n).map ch

mutual
/-- The type-id of a type around the abstract declarator `d` (C++ standard, [dcl.name]): the signs of pointers and references are put
in front of the declarator, the dimensions behind it. Allocators have no names in the library; they are written as none. -/
def spell : Ty → List Byte → List Byte
  | .named c v n, d => front c v ++ n ++ d
  | .inst c v n args, d => front c v ++ n ++ lit "<" ++ spellArgs args ++ lit ">" ++ d
  | .func c v r args, d => front c v ++ lit "Function<" ++ spell r (lit "(" ++ spellArgs args ++ lit ")") ++ lit ">" ++ d
  | .ptr c v t, d => spell t (paren t (lit "*" ++ behind c v ++ d))
  | .arr t n, d => spell t (d ++ lit "[" ++ decimal n ++ lit "]")
  | .lref t, d => spell t (paren t (lit "&" ++ d))
  | .rref t, d => spell t (paren t (lit "&&" ++ d))
def spellArgs : Args → List Byte
  | .nil => []
  | .ty t rest => spell t [] ++ spellTail rest
  | .num n rest => decimal n ++ spellTail rest
  | .alloc _ rest => spellArgs rest
def spellTail : Args → List Byte
  | .nil => []
  | .ty t rest => lit ", " ++ spell t [] ++ spellTail rest
  | .num n rest => lit ", " ++ decimal n ++ spellTail rest
  | .alloc _ rest => spellTail rest
end

mutual
/-- No pointer or reference to an array, no function returning an array and no array of arrays. -/
def NoNestedArray : Ty → Prop
  | .named _ _ _ => True
  | .inst _ _ _ args => NoNestedArrays args
  | .func _ _ r args => isArr r = false ∧ NoNestedArray r ∧ NoNestedArrays args
  | .ptr _ _ t => isArr t = false ∧ NoNestedArray t
  | .arr t _ => isArr t = false ∧ NoNestedArray t
  | .lref t => isArr t = false ∧ NoNestedArray t
  | .rref t => isArr t = false ∧ NoNestedArray t
def NoNestedArrays : Args → Prop
  | .nil => True
  | .ty t rest => NoNestedArray t ∧ NoNestedArrays rest
  | .num _ rest => NoNestedArrays rest
  | .alloc _ rest => NoNestedArrays rest
end

end Rpp.Spec.Typename
