import Verif.Proof.VectHash
import Verif.Props.Hash

/-!
# C144: hashes of vectors

Full statement: vectors that are equal have the same hash; vectors that differ in one component have different hashes.
-/

namespace Rpp.Props
open Rpp.Hash

/-- Vectors that agree except in one component have the same hash exactly if that component has. -/
theorem C144_component {α : Type} (f : α → BitVec 64) (p r : List α) (a b : α) :
    hashVect f (p ++ a :: r) = hashVect f (p ++ b :: r) ↔ f a = f b := by
  unfold hashVect
  rw [List.foldl_append, List.foldl_append, List.foldl_cons, List.foldl_cons]
  refine ⟨fun e => ?_, fun e => by rw [e]⟩
  have e := squirrel5_inj (hashVect_inj f r _ _ e)
  simpa using e

/-- So one changed component of a vector of integers of any width, or of numbers of which not both are zero, changes the hash. -/
theorem C144_integers {w : Nat} (hw : w ≤ 64) (p r : List (BitVec w)) (a b : BitVec w) (h : a ≠ b) :
    hashVect hashUnsigned (p ++ a :: r) ≠ hashVect hashUnsigned (p ++ b :: r) ∧
    hashVect hashSigned (p ++ a :: r) ≠ hashVect hashSigned (p ++ b :: r) :=
  ⟨fun e => (C05_integer_hash_injective hw a b h).1 ((C144_component _ p r a b).1 e),
   fun e => (C05_integer_hash_injective hw a b h).2 ((C144_component _ p r a b).1 e)⟩

example : hashVect hashSigned [1#32, 2#32, 3#32] ≠ hashVect hashSigned [1#32, -2#32, 3#32] :=
  (C144_integers (by decide) [1#32] [3#32] 2#32 (-2#32) (by decide)).2

/-- Changes of two components can cancel: for any first component of the other vector there is exactly one second one. -/
theorem C144_collision (a b a' : BitVec 64) :
    ∃ b', hashVect hashUnsigned [a, b] = hashVect hashUnsigned [a', b'] ∧
      ∀ b'', hashVect hashUnsigned [a, b] = hashVect hashUnsigned [a', b''] → b'' = b' := by
  have key : ∀ c, hashVect hashUnsigned [a, b] = hashVect hashUnsigned [a', c] ↔
      squirrel5 c = squirrel5 (squirrel5 a) + squirrel5 b - squirrel5 (squirrel5 a') := by
    intro c
    simp only [hashVect, List.foldl_cons, List.foldl_nil, hash_combine, hashUnsigned, BitVec.setWidth_eq, BitVec.ofNat_eq_ofNat, BitVec.zero_add]
    constructor
    · intro e
      have e := squirrel5_inj e
      rw [e, BitVec.add_comm, BitVec.add_sub_cancel]
    · intro e
      rw [e, BitVec.add_comm _ (_ - _), BitVec.sub_add_cancel]
  obtain ⟨b', hb⟩ := C05_squirrel5_bijective.2 (squirrel5 (squirrel5 a) + squirrel5 b - squirrel5 (squirrel5 a'))
  exact ⟨b', (key b').2 hb, fun b'' h => squirrel5_inj (((key b'').1 h).trans hb.symm)⟩

/-- Vectors of floating point numbers that compare equal have the same hash, as long as no component is zero in both with
different signs. -/
theorem C144_floats_partial (a b : List (BitVec 32)) (hl : a.length = b.length) (h : eqVect a b = true)
    (hz : ∀ p ∈ a.zip b, p.1.setWidth 31 = 0#31 → p.1 = p.2) : hashVect hashF32 a = hashVect hashF32 b := by
  have : a = b := by
    induction a generalizing b with
    | nil => exact (List.length_eq_zero_iff.1 hl.symm).symm
    | cons x a ih =>
      cases b with
      | nil => cases hl
      | cons y b =>
        unfold eqVect at h
        rw [List.zip_cons_cons, List.all_cons, Bool.and_eq_true] at h
        have hxy : x = y := by
          have h1 := h.1
          unfold eqF32 at h1
          simp only [Bool.and_eq_true, Bool.or_eq_true, beq_iff_eq] at h1
          rcases h1.2 with e | e
          · exact e
          · exact hz (x, y) (List.mem_cons_self ..) e.1
        rw [hxy, ih b (by simpa using hl) h.2 fun p hp => hz p (List.mem_cons_of_mem _ hp)]
  rw [this]

example : eqVect [0x3F800000#32, 0x80000000#32] [0x3F800000#32, 0x80000000#32] = true := by decide

/-- False: `Vec3{x, 0, z} == Vec3{x, -0, z}`, whatever `x` and `z` are unless NaN, and their hashes differ; so a map does not find
the one under the other. -/
theorem C144_false (p r : List (BitVec 32)) (hp : eqVect p p = true) (hr : eqVect r r = true) :
    eqVect (p ++ 0#32 :: r) (p ++ 0x80000000#32 :: r) = true ∧
    hashVect hashF32 (p ++ 0#32 :: r) ≠ hashVect hashF32 (p ++ 0x80000000#32 :: r) := by
  refine ⟨?_, fun e => C07_float_zero_false.1 ((C144_component hashF32 p r _ _).1 e)⟩
  unfold eqVect at *
  rw [List.zip_append rfl, List.zip_cons_cons, List.all_append, List.all_cons, hp, hr]
  decide

example : eqVect [0x3F800000#32] [0x3F800000#32] = true := by decide

end Rpp.Props
