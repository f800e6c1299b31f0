import Verif.Proof.Angle

/-!
# C147: degrees and radians

Full statement: `radians` multiplies by `π / 180` and `degrees` by `180 / π` with the accuracy of the type, and one undoes the other.
The factors are computed in `f32` for every type; so this is false for `f64` (`C147_double_false`).
-/

namespace Rpp.Props
open Rpp.Angle

/-- **C147, partial.** For every type with at least 24 bits the relative error is at most `2 ^ -23`. Missing: more than that for `f64`. -/
theorem C147_accuracy_partial (p : Nat) (hp : 24 ≤ p) (v : Rat) :
    |(radians p v : Real) - v * (Real.pi / 180)| ≤ |(v : Real) * (Real.pi / 180)| / 2 ^ 23 ∧
    |(degrees p v : Real) - v * (180 / Real.pi)| ≤ |(v : Real) * (180 / Real.pi)| / 2 ^ 23 := by
  have hpi := Real.pi_pos
  exact ⟨product_le p v _ _ (8 / 10 ^ 9) hp (by positivity) perDegree_bounds.1 (by norm_num),
    product_le p v _ _ (55 / 10 ^ 9) hp (by positivity) perRadian_bounds.1 (by norm_num)⟩

/-- **C147 is false of the code** for `f64`: for every angle but 0 the relative error is at least `6 * 10 ^ -9` and `53 * 10 ^ -9`, that
of a type with 27 or 24 bits. -/
theorem C147_double_false (p : Nat) (hp : 53 ≤ p) (v : Rat) :
    |(v : Real) * (Real.pi / 180)| * (6 / 10 ^ 9) ≤ |(radians p v : Real) - v * (Real.pi / 180)| ∧
    |(v : Real) * (180 / Real.pi)| * (53 / 10 ^ 9) ≤ |(degrees p v : Real) - v * (180 / Real.pi)| := by
  have hpi := Real.pi_pos
  have half (c : Rat) (y d : Real) (hy : 0 < y) (hd : |(c : Real) - y| ≤ d * y) (h1 : d ≤ 1) : |(c : Real)| ≤ 2 * y := by
    have := abs_add_le ((c : Real) - y) y
    rw [sub_add_cancel, abs_of_pos hy] at this
    nlinarith
  exact ⟨product_ge p v _ _ (7 / 10 ^ 9) _ hp (by positivity) perDegree_bounds.2
      (half _ _ _ (by positivity) perDegree_bounds.1 (by norm_num)) (by norm_num),
    product_ge p v _ _ (54 / 10 ^ 9) _ hp (by positivity) perRadian_bounds.2
      (half _ _ _ (by positivity) perRadian_bounds.1 (by norm_num)) (by norm_num)⟩

/-- **C147 is false of the code:** in `f64` the way to radians and back makes every angle smaller. -/
theorem C147_back_false (p : Nat) (hp : 53 ≤ p) (v : Rat) (hv : v ≠ 0) :
    |degrees p (radians p v)| < |v| * (1 - 6 / 10 ^ 8) ∧ degrees p (radians p v) ≠ v := by
  have hpow : (2 : Rat) ^ 53 ≤ 2 ^ p := pow_le_pow_right₀ (by norm_num) hp
  have grow (x : Rat) : |round p x| ≤ |x| * (1 + 1 / 2 ^ 53) := by
    have h1 := round_err p x
    have h2 := abs_add_le (round p x - x) x
    rw [sub_add_cancel] at h2
    have h3 : |x| / 2 ^ p ≤ |x| / 2 ^ 53 := by gcongr
    linarith
  have hv0 : 0 < |v| := abs_pos.2 hv
  have h1 := grow (v * perDegree)
  have h2 := grow (radians p v * perRadian)
  have h1 : |radians p v| ≤ _ := h1
  rw [abs_mul, abs_of_pos (by rw [perDegree_eq]; norm_num : 0 < perDegree)] at h1
  rw [abs_mul, abs_of_pos (by rw [perRadian_eq]; norm_num : 0 < perRadian)] at h2
  have h3 : |degrees p (radians p v)| ≤ |v| * (perDegree * (1 + 1 / 2 ^ 53) * perRadian * (1 + 1 / 2 ^ 53)) := by
    refine h2.trans ?_
    have : |radians p v| * perRadian * (1 + 1 / 2 ^ 53) ≤ |v| * perDegree * (1 + 1 / 2 ^ 53) * perRadian * (1 + 1 / 2 ^ 53) := by
      gcongr
      rw [perRadian_eq]; norm_num
    refine this.trans (le_of_eq (by ring))
  have h4 : |degrees p (radians p v)| < |v| * (1 - 6 / 10 ^ 8) := by
    refine lt_of_le_of_lt h3 ?_
    gcongr
    rw [perDegree_eq, perRadian_eq]
    norm_num
  refine ⟨h4, fun h => ?_⟩
  rw [h] at h4
  have : |v| * (1 - 6 / 10 ^ 8) ≤ |v| * 1 := by gcongr; norm_num
  rw [mul_one] at this
  exact absurd h4 (not_lt.2 this)

/-- In `f32`: 180 degrees are `PI32`, and back; one degree does not come back. -/
example : radians 24 180 = pi32 ∧ degrees 24 pi32 = 180 ∧ degrees 24 (radians 24 1) ≠ 1 := by decide +kernel

/-- In `f64`: half a turn is off in the eighth digit. -/
example : radians 53 180 < 314159263 / 10 ^ 8 ∧ radians 53 180 ≠ round 53 (314159265358979323846 / 10 ^ 20) := by decide +kernel

end Rpp.Props
