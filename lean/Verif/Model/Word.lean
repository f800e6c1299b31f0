/-!
# 64-bit words

`u64` values as natural numbers below `2^64`, with C++'s wrap-around arithmetic
(`rpp/base.h:87-90`).
-/

namespace Rpp

/-- `a + b` on `u64`. -/
def wadd (a b : Nat) : Nat := (a + b) % 2 ^ 64

/-- `a - b` on `u64`. -/
def wsub (a b : Nat) : Nat := (a + (2 ^ 64 - b % 2 ^ 64)) % 2 ^ 64

/-- `a * b` on `u64`. -/
def wmul (a b : Nat) : Nat := (a * b) % 2 ^ 64

end Rpp
