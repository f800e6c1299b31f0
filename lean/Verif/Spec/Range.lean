/-!
# What a range allocator is

Ranges handed out from an interval `[0, cap)`. Independent of the implementation.
-/

namespace Rpp.Spec

/-- A range in use: the handle, what the handle showed when it was handed out (`offset`, `length()`,
`padding()`), and the request. -/
structure Grant where
  handle : Nat
  off : Nat
  len : Nat
  pad : Nat
  size : Nat
  align : Nat
  deriving DecidableEq, Repr

/-- Position `x` belongs to the range or to its padding. -/
def Grant.Occ (r : Grant) (x : Nat) : Prop := r.off - r.pad ≤ x ∧ x < r.off + r.len

/-- Position `x` belongs to the range. -/
def Grant.Has (r : Grant) (x : Nat) : Prop := r.off ≤ x ∧ x < r.off + r.len

/-- `G` lists the maximal intervals `(start, size)` of `[0, cap)` outside the ranges `g` and their
padding, in order. -/
structure IsGaps (cap : Nat) (g : List Grant) (G : List (Nat × Nat)) : Prop where
  apart : G.Pairwise (fun a b => a.1 + a.2 < b.1)
  inside : ∀ p ∈ G, 0 < p.2 ∧ p.1 + p.2 ≤ cap
  cover : ∀ x, x < cap → ((∃ p ∈ G, p.1 ≤ x ∧ x < p.1 + p.2) ↔ ∀ r ∈ g, ¬ r.Occ x)

/-- The size class of a gap of `n` positions among `B` classes, the first of which is for all gaps
shorter than `2 ^ (bias + 1)`. -/
def sizeClass (B bias n : Nat) : Nat := min (Nat.log2 n - bias) (B - 1)

end Rpp.Spec
