import Verif.Model.Rng
import Mathlib.Logic.Function.Iterate

/-!
# Specification: streams that run into each other
-/

namespace Rpp.RNG

/-- The state after `k` draws. -/
def after (k : Nat) (s : BitVec 64) : BitVec 64 := Nat.iterate next k s

/-- A number occurs among the first `n` of both streams. -/
def Share (n : Nat) (a b : BitVec 64) : Prop := ∃ x, x ∈ draws n a ∧ x ∈ draws n b

end Rpp.RNG
