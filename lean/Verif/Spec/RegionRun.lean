import Verif.Model.Region
import Verif.Spec.Region

/-!
# Threads that use regions
-/

namespace Rpp.Reg
open Rpp Rpp.Spec

/-- An open scope: its brand, the blocks it has handed out (newest first), and the chunks and `size()` when
it began. -/
structure Scope where
  brand : Nat
  blocks : List MBlock
  saved : List Chunk
  size0 : Nat

/-- What a thread can do: `Run lim s sc` says that the state can be `s` with the scopes `sc` open, innermost
first. The last of them stands for code outside of any region, which has brand 0 (`Mregion<0>`).
Requests are smaller than `2 ^ 63` bytes. -/
inductive Run (lim : Nat) : Reg → List Scope → Prop
  | start : Run lim init [⟨0, [], init.chunks, 0⟩]
  | begin {s s' : Reg} {sc : List Scope} {b : Nat} : Run lim s sc → begin s b = .ok s' →
      Run lim s' (⟨b, [], s.chunks, s.size⟩ :: sc)
  | alloc {s s' : Reg} {c : Scope} {sc : List Scope} {b n id off : Nat} : Run lim s (c :: sc) →
      n < 2 ^ 63 → alloc lim s b n = .ok (s', id, off) →
      Run lim s' ({ c with blocks := ⟨id, off, n⟩ :: c.blocks } :: sc)
  | close {s s' : Reg} {c d : Scope} {sc : List Scope} {b : Nat} : Run lim s (c :: d :: sc) →
      end' s b = .ok s' → Run lim s' (d :: sc)

/-- Blocks of all scopes. -/
def allBlocks (sc : List Scope) : List MBlock := sc.flatMap Scope.blocks

/-- Room for `n` bytes: in the newest chunk, or in a new one that the system can provide. -/
def Room (lim : Nat) (s : Reg) (n : Nat) : Prop :=
  ∃ k ∈ s.chunks.head?, k.used + n ≤ k.size ∨ (n + 24 ≤ lim ∧ 2 * (k.size + 24) ≤ lim)

end Rpp.Reg
