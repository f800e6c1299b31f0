import Verif.Model.Str

/-! What the string properties are stated in terms of: byte lists. -/

namespace Rpp

/-- The view points into memory that exists (and is no larger than an address space can be). -/
def View.Valid (v : View) : Prop := v.off + v.len ≤ v.mem.length ∧ v.mem.length < 2 ^ 63

/-- The bytes a view shows. -/
def View.bytes (v : View) : List Byte := (v.mem.drop v.off).take v.len

/-- The string holds exactly the bytes `l`, all of them written. -/
def Str.Holds (s : Str) (l : List Byte) : Prop :=
  s.len = l.length ∧ s.buf.take s.len = l.map some

namespace Spec

/-- Lexicographic order by unsigned byte: a proper prefix, or smaller at the first difference. -/
def LexLt (a b : List Byte) : Prop :=
  (∃ y t, b = a ++ y :: t) ∨
  ∃ p x y s t, a = p ++ x :: s ∧ b = p ++ y :: t ∧ x.toNat < y.toNat

/-- A C string ends at its first zero byte. -/
def cstr (l : List Byte) : List Byte := l.takeWhile (· ≠ 0#8)

/-- `a` is split by `q` into what comes up to and including the last byte satisfying `q`, and the
rest. -/
def SplitLast (q : Byte → Prop) (l pre post : List Byte) : Prop :=
  l = pre ++ post ∧ (∀ b ∈ post, ¬ q b) ∧ (∃ p b, pre = p ++ [b] ∧ q b)

/-- A path separator of either convention. -/
def Separator (b : Byte) : Prop := b = ch '/' ∨ b = ch '\\'

end Spec
end Rpp
