import Verif.Model.Ieee
import Verif.Model.Word

/-!
# Model: limits of types and sizes (`rpp/limits.h`, `rpp/math.h:44-51`)

A decimal constant in the source is the number of its type next to it, as for text that is read.
-/

namespace Rpp.Limits

open Rpp.Ieee

/-- The integer types. -/
inductive IntTy where
  | u8 | u16 | u32 | u64 | i8 | i16 | i32 | i64
deriving DecidableEq

/-- `Limits<T>::max()` (`rpp/limits.h:22-29, 36-116`). -/
def max : IntTy → Int
  | .u8 => 0xff
  | .u16 => 0xffff
  | .u32 => 0xffffffff
  | .u64 => 0xffffffffffffffff
  | .i8 => 127
  | .i16 => 32767
  | .i32 => 2147483647
  | .i64 => 9223372036854775807

/-- `Limits<T>::min()` (`rpp/limits.h:18-21, 36-116`). -/
def min : IntTy → Int
  | .u8 | .u16 | .u32 | .u64 => 0
  | .i8 => -127 - 1
  | .i16 => -32767 - 1
  | .i32 => -2147483647 - 1
  | .i64 => -9223372036854775807 - 1

/-- The floating point types. -/
inductive FloatTy where
  | f32 | f64
deriving DecidableEq

/-- Their formats. -/
def FloatTy.fmt : FloatTy → Format
  | .f32 => Ieee.f32
  | .f64 => Ieee.f64

/-- `Limits<T>::max()` (`rpp/limits.h:11, 15, 120-122, 139-141`). -/
def fmax : FloatTy → F
  | .f32 => rnd Ieee.f32 (3402823466 * 10 ^ 29)
  | .f64 => rnd Ieee.f64 (17976931348623158 * 10 ^ 292)

/-- The other sign. -/
def neg : F → F
  | .fin x => .fin (-x)
  | .inf b => .inf (!b)
  | .nan => .nan

/-- `Limits<T>::min()` (`rpp/limits.h:123-125, 142-144`). -/
def fmin (t : FloatTy) : F := neg (fmax t)

/-- `smallest_norm()` (`rpp/limits.h:12, 16, 126-128, 145-147`). -/
def smallest_norm : FloatTy → F
  | .f32 => rnd Ieee.f32 (1175494351 / 10 ^ 47)
  | .f64 => rnd Ieee.f64 (22250738585072014 / 10 ^ 324)

/-- `smallest_denorm()` (`rpp/limits.h:13, 17, 129-131, 148-150`). -/
def smallest_denorm : FloatTy → F
  | .f32 => rnd Ieee.f32 (1401298464 / 10 ^ 54)
  | .f64 => rnd Ieee.f64 (49406564584124654 / 10 ^ 340)

/-- `epsilon()` (`rpp/limits.h:10, 14, 132-134, 151-153`). -/
def epsilon : FloatTy → F
  | .f32 => rnd Ieee.f32 (1192092896 / 10 ^ 16)
  | .f64 => rnd Ieee.f64 (22204460492503131 / 10 ^ 32)

/-- `Math::KB`, `MB`, `GB` (`rpp/math.h:44-51`). -/
def KB (n : Nat) : Nat := wmul n 1024
def MB (n : Nat) : Nat := wmul n (KB 1024)
def GB (n : Nat) : Nat := wmul n (MB 1024)

end Rpp.Limits
