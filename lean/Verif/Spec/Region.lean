/-!
# Nested scopes of memory

What a program that uses regions sees: open scopes, innermost first, and the blocks each has handed out.
-/

namespace Rpp.Spec

/-- A block of memory: `size` bytes from offset `off` in a piece of memory named `chunk`. -/
structure MBlock where
  chunk : Nat
  off : Nat
  size : Nat
  deriving DecidableEq, Repr

/-- No byte belongs to both. -/
def MBlock.Disjoint (a b : MBlock) : Prop :=
  ∀ x, ¬ (a.chunk = b.chunk ∧ (a.off ≤ x ∧ x < a.off + a.size) ∧ (b.off ≤ x ∧ x < b.off + b.size))

end Rpp.Spec
