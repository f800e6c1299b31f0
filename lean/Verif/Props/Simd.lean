import Verif.Model.Simd
import Verif.Props.Mat4

/-!
# C142: the two implementations of `F32x4`

Full statement: a program gets the same numbers whether the library is compiled with SSE intrinsics (MSVC) or with vector
extensions (clang).
-/

namespace Rpp.Props

open Rpp.Simd Rpp.VMath

variable {T : Type}

/-- The functions that work lane by lane, and the comparison, are the same, whatever the arithmetic. -/
theorem C142_lanes (o : Ar T) :
    (∀ x y z w : T, Sse.set x y z w = Ext.set x y z w) ∧ (∀ x : T, Sse.set1 x = Ext.set1 x) ∧
    Sse.zero o = Ext.zero o ∧ Sse.one o = Ext.one o ∧
    (∀ a b, Sse.add o a b = Ext.add o a b ∧ Sse.sub o a b = Ext.sub o a b ∧ Sse.mul o a b = Ext.mul o a b ∧
      Sse.div o a b = Ext.div o a b ∧ Sse.cmpeq_all o a b = Ext.cmpeq_all o a b) ∧
    (∀ a, Sse.floor o a = Ext.floor o a ∧ Sse.ceil o a = Ext.ceil o a ∧ Sse.abs o a = Ext.abs o a) := by
  refine ⟨fun _ _ _ _ => rfl, fun _ => rfl, rfl, rfl, fun a b => ⟨rfl, rfl, rfl, rfl, ?_⟩, fun _ => ⟨rfl, rfl, rfl⟩⟩
  unfold Sse.cmpeq_all Ext.cmpeq_all
  cases o.eq a.x b.x <;> cases o.eq a.y b.y <;> cases o.eq a.z b.z <;> cases o.eq a.w b.w <;> rfl

/-- The inverse of a matrix is the same to the last bit: the same operations are done on the same operands. -/
theorem C142_inverse (o : Ar T) (m : Mat4 T) : Sse.inverse o m = Ext.inverse o m := by
  rfl

/-- In exact arithmetic it is the function of C70. -/
theorem C142_inverse_exact {K : Type} [Field K] [LT K] [DecidableLT K] [DecidableEq K] (fl ce ab : K → K) (m : Mat4 K) :
    Sse.inverse (exact K fl ce ab) m = m.inverse := by
  rfl

/-- Scalar products are the same if sums may be taken in any order. `_partial`: rounded sums. -/
theorem C142_dp_partial (o : Ar T) (ha : ∀ a b c, o.add (o.add a b) c = o.add a (o.add b c)) (h0 : ∀ a, o.add o.zero a = a)
    (a b : V4 T) : Sse.dp o a b = Ext.dp o a b := by
  simp only [Sse.dp, mm_dp_ps, Ext.dp, Ext.mul, h0, ha]

/-- Minimum and maximum are the same on operands that are not NaN and, if neither is less, are the same. `_partial`: NaN, zeros of
different sign. -/
theorem C142_min_partial (o : Ar T) (a b : V4 T)
    (hc : ∀ i < 4, o.isNan (a.get i) = false ∧ o.isNan (b.get i) = false ∧
      ((o.lt (a.get i) (b.get i) = true ∧ o.lt (b.get i) (a.get i) = false) ∨
        (o.lt (a.get i) (b.get i) = false ∧ o.lt (b.get i) (a.get i) = true) ∨ a.get i = b.get i)) :
    Sse.minV o a b = Ext.minV o a b ∧ Sse.maxV o a b = Ext.maxV o a b := by
  have lane : ∀ x y : T, o.isNan x = false ∧ o.isNan y = false ∧
      ((o.lt x y = true ∧ o.lt y x = false) ∨ (o.lt x y = false ∧ o.lt y x = true) ∨ x = y) →
      minps o x y = (if o.isNan x then y else if o.isNan y then x else if o.lt y x then y else x) ∧
      maxps o x y = (if o.isNan x then y else if o.isNan y then x else if o.lt x y then y else x) := by
    rintro x y ⟨h1, h2, ⟨h3, h4⟩ | ⟨h3, h4⟩ | rfl⟩
    · simp [minps, maxps, h1, h2, h3, h4]
    · simp [minps, maxps, h1, h2, h3, h4]
    · simp [minps, maxps, h1]
  have h0 := lane _ _ (hc 0 (by omega))
  have h1 := lane _ _ (hc 1 (by omega))
  have h2 := lane _ _ (hc 2 (by omega))
  have h3 := lane _ _ (hc 3 (by omega))
  simp only [V4.get] at h0 h1 h2 h3
  constructor
  · simp only [Sse.minV, Ext.minV, lanes, h0.1, h1.1, h2.1, h3.1]
  · simp only [Sse.maxV, Ext.maxV, lanes, h0.2, h1.2, h2.2, h3.2]

/-- The hypotheses are met: on whole numbers below `2 ^ 24`, for one. -/
example : Sse.minV whole ⟨some 1, some 2, some 3, some 4⟩ ⟨some 4, some 3, some 3, some 1⟩ = ⟨some 1, some 2, some 3, some 1⟩ ∧
    Ext.maxV whole ⟨some 1, some 2, some 3, some 4⟩ ⟨some 4, some 3, some 3, some 1⟩ = ⟨some 4, some 3, some 3, some 4⟩ := by
  decide +kernel

example (a b : V4 ℚ) : Sse.dp (exact ℚ id id id) a b = Ext.dp (exact ℚ id id id) a b :=
  C142_dp_partial _ (fun a b c => by simp only [exact]; ring) (fun a => by simp only [exact]; ring) a b

/-- **C142 is false.** `dot((16777216, 1, 1, 1), (1, 1, 1, 1))` is 16777218 with SSE and 16777216 with vector extensions; the least of 1
and NaN is NaN with SSE and 1 with vector extensions. -/
theorem C142_false :
    (Sse.dp whole ⟨some (2 ^ 24), some 1, some 1, some 1⟩ (Sse.set1 (some 1)) = some (2 ^ 24 + 2) ∧
      Ext.dp whole ⟨some (2 ^ 24), some 1, some 1, some 1⟩ (Ext.set1 (some 1)) = some (2 ^ 24)) ∧
    (Sse.minV whole (Sse.set1 (some 1)) (Sse.set1 none) = Sse.set1 none ∧
      Ext.minV whole (Ext.set1 (some 1)) (Ext.set1 none) = Ext.set1 (some 1)) := by
  decide +kernel

end Rpp.Props
