import Verif.Model.Hash

/-!
# Model: hashes of vectors

`rpp/vmath.h:955-964`, `rpp/hash.h:33-66`. A vector is the list of its components; a component is its bit pattern.
-/

namespace Rpp.Hash

/-- `Hash<Vect<T, N>>::hash` (`rpp/vmath.h:957-964`), `h` being `Hash<T>::hash`. -/
def hashVect {α : Type} (h : α → BitVec 64) (v : List α) : BitVec 64 := v.foldl (fun acc a => hash_combine acc (h a)) 0

/-- `==` of `f32` on bit patterns (IEEE 754): no number equals NaN, and the two zeros are equal. -/
def eqF32 (a b : BitVec 32) : Bool :=
  let nan (x : BitVec 32) := decide (0x7F800000 < (x.setWidth 31).toNat)
  !nan a && !nan b && (a == b || (a.setWidth 31 == 0#31 && b.setWidth 31 == 0#31))

/-- `Vect<f32, N>::operator==` (`rpp/vmath.h:216-224`): all components are equal. -/
def eqVect (a b : List (BitVec 32)) : Bool := (a.zip b).all fun p => eqF32 p.1 p.2

end Rpp.Hash
