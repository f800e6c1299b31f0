import Verif.Model.Stats

/-!
# What the allocation statistics should say
-/

namespace Rpp
namespace StatsSpec
open Stats
variable {N : Type} [DecidableEq N]

/-- The block is in use, and its allocator logs under the name `n`. -/
def inUse (n : N) (b : Blk N) : Bool := b.name = n ∧ b.log ∧ b.phase = .ready

/-- The bytes in use under a name. -/
def bytes (s : St N) (n : N) : Nat := (s.blks.map fun b => if inUse n b then b.size else 0).sum

/-- The number of blocks in use under a name. -/
def count (s : St N) (n : N) : Nat := (s.blks.map fun b => if inUse n b then 1 else 0).sum

/-- All bytes the schedule asks for. -/
def asked : List (Ev N) → Nat
  | [] => 0
  | .malloc _ size _ _ :: r => size + asked r
  | _ :: r => asked r

end StatsSpec
end Rpp
