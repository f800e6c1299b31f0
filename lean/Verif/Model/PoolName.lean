import Verif.Model.Math

/-!
# The names of the object pools (`rpp/alloc1.h:12-24`, `rpp/utility.h:602-628`)

`detail::Pool<N>` keeps the freed blocks of `N` bytes; its allocations are reported under the name `pool_name(N)`. A `Literal` is
an array of 32 characters, filled up with zeros.
-/

namespace Rpp.PoolName

/-- `Literal::max_len` (`rpp/utility.h:603`). -/
def maxLen : Nat := 32

/-- `for(u64 i = N; i > 0; i /= 10) n++` (`rpp/alloc1.h:14-17`). -/
def countLoop : Nat → Nat → Nat → Res Nat
  | 0, _, _ => .error .hang
  | fuel + 1, i, n => if 0 < i then countLoop fuel (i / 10) (n + 1) else .ok n

/-- The loop that writes the digits (`rpp/alloc1.h:19-21`); gives the array and `i`. -/
def digitLoop (N : Nat) : Nat → Nat → List Nat → Res (List Nat × Nat)
  | 0, i, c => .ok (c, i)
  | n + 1, i, c =>
    if i < maxLen - 1 then do
      let p ← Math.pow Math.u64 65 10 n
      if p = 0 then .error .ub
      else if i < c.length then digitLoop N n (i + 1) (c.set i (48 + N / p.toNat % 10))
      else .error .ub
    else .ok (c, i)

/-- `Literal{"Pool<"}`. -/
def start : List Nat := [80, 111, 111, 108, 60] ++ List.replicate 27 0

/-- `pool_name(N)` (`rpp/alloc1.h:12-24`). -/
def poolName (N : Nat) : Res (List Nat) := do
  let n ← countLoop 65 N 0
  let (c, i) ← digitLoop N n 5 start
  if i < c.length then return c.set i 62 else .error .ub

end Rpp.PoolName
