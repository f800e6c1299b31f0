import Verif.Model.Range

/-!
# How many blocks `allocate` looks at (`rpp/range_allocator.h`)
-/

namespace Rpp.RA

/-- The search of `allocate` (`rpp/range_allocator.h:79-104`) with the number of turns of its second loop left open: the block and the
padding. Each turn but the last, if nothing is found, looks at one block. -/
def lookIn (B bias : Nat) (s : RA) (size alignment turns : Nat) : Res (Option (Nat × Nat)) := do
  let idx ← firstBucket B s.heads 257 (size_to_idx B bias size)
  if idx = B then return none
  bucket B idx
  search B s size alignment turns (s.heads idx) idx

end Rpp.RA
