import Verif.Model.Limits

/-!
# Specification: the values of a type
-/

namespace Rpp.Limits.Spec

/-- Whether a type has a sign, and its bits. -/
def signed : IntTy → Bool
  | .u8 | .u16 | .u32 | .u64 => false
  | .i8 | .i16 | .i32 | .i64 => true

def bits : IntTy → Nat
  | .u8 | .i8 => 8
  | .u16 | .i16 => 16
  | .u32 | .i32 => 32
  | .u64 | .i64 => 64

/-- The number that bits stand for. -/
def value (t : IntTy) (b : BitVec (bits t)) : Int := if signed t then b.toInt else b.toNat

/-- The digits of the mantissa, and the least exponent and the bound of the exponents of normal numbers. -/
def digits : FloatTy → Nat
  | .f32 => 24
  | .f64 => 53

def least : FloatTy → Int
  | .f32 => -126
  | .f64 => -1022

def bound : FloatTy → Int
  | .f32 => 128
  | .f64 => 1024

/-- The finite numbers of a type. -/
def Num (t : FloatTy) (x : Rat) : Prop :=
  ∃ m e : Int, |m| < 2 ^ digits t ∧ least t - (digits t - 1) ≤ e ∧ x = m * 2 ^ e ∧ |x| < 2 ^ bound t

/-- The normal ones among them: those of full accuracy. -/
def Normal (t : FloatTy) (x : Rat) : Prop :=
  ∃ m e : Int, 2 ^ (digits t - 1) ≤ |m| ∧ |m| < 2 ^ digits t ∧ least t - (digits t - 1) ≤ e ∧ x = m * 2 ^ e ∧ |x| < 2 ^ bound t

end Rpp.Limits.Spec
