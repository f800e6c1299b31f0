import Verif.Model.VectHash
import Verif.Proof.Hash

namespace Rpp.Hash

/-- The hash so far can be read off the hash with more components. -/
theorem hashVect_inj {α : Type} (f : α → BitVec 64) : ∀ (s : List α) (h h' : BitVec 64),
    s.foldl (fun h c => hash_combine h (f c)) h = s.foldl (fun h c => hash_combine h (f c)) h' → h = h'
  | [], _, _, e => e
  | c :: r, h, h', e => by
    have e := squirrel5_inj (hashVect_inj f r _ _ e)
    simpa using e

end Rpp.Hash
