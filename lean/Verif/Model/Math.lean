import Verif.Model.Mem

/-!
# Model of the integer functions of `rpp::Math` (`rpp/math.h`, `rpp/impl/math.cpp`)

Unsigned words of width `w` (32 or 64) are natural numbers below `2^w`. Integer types are given by
width and signedness; their values are integers, `usual` are C++'s arithmetic conversions.
-/

namespace Rpp.Math
open Rpp

/-- `__builtin_clz` on a word of `k` bits: the number of zero bits above the highest one bit. -/
def clzFrom : Nat → Nat → Nat
  | 0, _ => 0
  | k + 1, val => if val.testBit k then 0 else 1 + clzFrom k val

/-- `ctlz` (`rpp/impl/math.cpp:131-147`; the GCC/Clang branch, `__builtin_clz(0)` is not reached). -/
def ctlz (w val : Nat) : Nat := if val = 0 then w else clzFrom w val

/-- `a - b` on words of width `w`. -/
def subw (w a b : Nat) : Nat := (a + (2 ^ w - b)) % 2 ^ w

/-- `log2` (`rpp/impl/math.cpp:149-154`), with unsigned wrap-around for 0. -/
def log2 (w val : Nat) : Nat := subw w (w - 1) (ctlz w val)

/-- `a << b` on words of width `w`: undefined for shifts of `w` and more. -/
def shl (w a b : Nat) : Res Nat := if b < w then .ok (a * 2 ^ b % 2 ^ w) else .error .ub

/-- `prev_pow2` (`rpp/impl/math.cpp:156-163`). -/
def prev_pow2 (w val : Nat) : Res Nat := if val = 0 then .ok 0 else shl w 1 (log2 w val)

/-- `next_pow2` (`rpp/impl/math.cpp:165-172`). -/
def next_pow2 (w x : Nat) : Res Nat := do
  let prev ← prev_pow2 w x
  if x = prev then return x else shl w prev 1

/-- `~a` on words of width `w`. -/
def notw (w a : Nat) : Nat := 2 ^ w - 1 - a

/-- `align_down_pow2` (`rpp/math.h:141-146`). -/
def align_down_pow2 (w x align : Nat) : Nat := x &&& notw w (subw w align 1)

/-- `align_down` (`rpp/math.h:148-155`). -/
def align_down (w x align : Nat) : Res Nat :=
  if align = 0 then .error .ub
  else
    let r := x % align
    .ok (if r = 0 then x else subw w x r)

/-- `align_pow2` (`rpp/math.h:157-162`). -/
def align_pow2 (w x align : Nat) : Nat :=
  subw w ((x + align) % 2 ^ w) 1 &&& notw w (subw w align 1)

/-- `align` (`rpp/math.h:164-171`). -/
def align (w x align : Nat) : Res Nat :=
  if align = 0 then .error .ub
  else
    let r := x % align
    .ok (if r = 0 then x else (x + subw w align r) % 2 ^ w)

/-! ### Integer types -/

/-- An integer type (`rpp/base.h:80-90`). -/
structure IntTy where
  w : Nat
  signed : Bool
  deriving DecidableEq, Repr

def u8 : IntTy := ⟨8, false⟩
def u16 : IntTy := ⟨16, false⟩
def u32 : IntTy := ⟨32, false⟩
def u64 : IntTy := ⟨64, false⟩
def i8 : IntTy := ⟨8, true⟩
def i16 : IntTy := ⟨16, true⟩
def i32 : IntTy := ⟨32, true⟩
def i64 : IntTy := ⟨64, true⟩

/-- Smallest value. -/
def IntTy.lo (t : IntTy) : Int := if t.signed then -2 ^ (t.w - 1) else 0
/-- Largest value. -/
def IntTy.hi (t : IntTy) : Int := if t.signed then 2 ^ (t.w - 1) - 1 else 2 ^ t.w - 1

/-- Values of a type. -/
def IntTy.has (t : IntTy) (x : Int) : Prop := t.lo ≤ x ∧ x ≤ t.hi
instance (t : IntTy) (x : Int) : Decidable (t.has x) := by unfold IntTy.has; infer_instance

/-- The type in which `a op b` is computed for `a`, `b` of type `t`: types narrower than `int` are
promoted to `int`. -/
def IntTy.usual (t : IntTy) : IntTy := if t.w < 32 then i32 else t

/-- The value of an operation whose mathematical result is `x`: signed overflow is undefined,
unsigned arithmetic wraps. -/
def arith (t : IntTy) (x : Int) : Res Int :=
  if t.usual.signed then (if t.usual.has x then .ok x else .error .ub) else .ok (x % 2 ^ t.usual.w)

/-- Conversion to type `t` (modular since C++20). -/
def conv (t : IntTy) (x : Int) : Int :=
  let r := x % 2 ^ t.w
  if t.signed ∧ 2 ^ (t.w - 1) ≤ r then r - 2 ^ t.w else r

/-- `a *= b`. -/
def mulAssign (t : IntTy) (a b : Int) : Res Int := do return conv t (← arith t (a * b))

/-- The loop of `pow` (`rpp/math.h:66-72`). `exp & 1` is the lowest bit, `exp >>= 1` divides rounding
down (arithmetic shift). -/
def powLoop (t : IntTy) : Nat → Int → Int → Int → Res Int
  | 0, _, _, _ => .error .hang
  | fuel + 1, result, base, exp =>
    if exp = 0 then .ok result
    else do
      let result ← (if exp % 2 = 1 then mulAssign t result base else .ok result)
      let exp := exp / 2
      let base ← mulAssign t base base
      powLoop t fuel result base exp

/-- `pow(I base, I exp)` (`rpp/math.h:63-74`), at most `fuel` iterations. -/
def pow (t : IntTy) (fuel : Nat) (base exp : Int) : Res Int := powLoop t fuel 1 base exp

/-- `min`/`max` of two (`rpp/math.h:16-24`). -/
def min2 (a b : Int) : Int := if a < b then a else b
def max2 (a b : Int) : Int := if a > b then a else b

/-- `clamp` (`rpp/math.h:127-130`). -/
def clamp (x start stop : Int) : Int := min2 (max2 x start) stop

/-- `min(std::initializer_list)` (`rpp/math.h:26-33`) for an integer type. -/
def minList (t : IntTy) (l : List Int) : Int := l.foldl min2 t.hi
/-- `max(std::initializer_list)` (`rpp/math.h:35-42`) for an integer type. -/
def maxList (t : IntTy) (l : List Int) : Int := l.foldl max2 t.lo

/-- `popcount` (`rpp/impl/math.cpp:115-129`), the builtin's contract. -/
def popcount : Nat → Nat → Nat
  | 0, _ => 0
  | k + 1, val => (if val.testBit k then 1 else 0) + popcount k val

/-- `abs(i32)`, `abs(i64)` (`rpp/impl/math.cpp`), `::abs`: undefined for the least value. -/
def iabs (t : IntTy) (v : Int) : Res Int := if v < 0 then arith t (-v) else .ok v

end Rpp.Math
