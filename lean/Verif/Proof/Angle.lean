import Verif.Model.Angle
import Mathlib.Analysis.Real.Pi.Bounds
import Mathlib.Tactic.Linarith
import Mathlib.Tactic.NormNum
import Mathlib.Tactic.Positivity

/-! Lemmas on degrees and radians. -/

namespace Rpp.Angle

theorem nearest_err (m : Rat) : |(nearest m : Rat) - m| ≤ 1 / 2 := by
  have h1 := Int.floor_le m
  have h2 := Int.lt_floor_add_one m
  unfold nearest
  dsimp only
  split
  · rw [abs_le]; constructor <;> linarith
  · split
    · rw [abs_le]; push_cast; constructor <;> linarith
    · split
      · rw [abs_le]; constructor <;> linarith
      · rw [abs_le]; push_cast; constructor <;> linarith

theorem round_err (p : Nat) (x : Rat) : |round p x - x| ≤ |x| / 2 ^ p := by
  unfold round
  split
  · rename_i h; simp [h]
  · rename_i h
    dsimp only
    have hx : 0 < |x| := abs_pos.2 h
    have hl := Int.zpow_log_le_self (b := 2) (by norm_num) hx
    push_cast at hl
    generalize hk : Int.log 2 |x| = k at hl
    have hu : (0 : Rat) < 2 ^ (k - (p - 1)) := by positivity
    have e : (nearest (x / 2 ^ (k - ((p : Int) - 1))) : Rat) * 2 ^ (k - ((p : Int) - 1)) - x =
        ((nearest (x / 2 ^ (k - ((p : Int) - 1))) : Rat) - x / 2 ^ (k - ((p : Int) - 1))) * 2 ^ (k - ((p : Int) - 1)) := by
      rw [sub_mul, div_mul_cancel₀ _ hu.ne']
    rw [e, abs_mul, abs_of_pos hu]
    have h2 : (2 : Rat) ^ (k - ((p : Int) - 1)) = 2 ^ k * 2 / 2 ^ p := by
      rw [show k - ((p : Int) - 1) = k + 1 - p by ring, zpow_sub₀ (by norm_num), zpow_add₀ (by norm_num), zpow_one, zpow_natCast]
    calc _ ≤ 1 / 2 * (2 : Rat) ^ (k - ((p : Int) - 1)) := by gcongr; exact nearest_err _
      _ = 2 ^ k / 2 ^ p := by rw [h2]; ring
      _ ≤ |x| / 2 ^ p := by gcongr

theorem perDegree_eq : perDegree = 9370165 / 2 ^ 29 := by decide +kernel
theorem perRadian_eq : perRadian = 15019744 / 2 ^ 18 := by decide +kernel

/-- The error of a rounded product with a factor `c` that is about `y`. -/
theorem product_le (p : Nat) (v c : Rat) (y d : Real) (hp : 24 ≤ p) (hy : 0 < y) (hd : |(c : Real) - y| ≤ d * y)
    (hd1 : d + (1 + d) / 2 ^ 24 ≤ 1 / 2 ^ 23) : |(round p (v * c) : Real) - v * y| ≤ |(v : Real) * y| / 2 ^ 23 := by
  have h1 := round_err p (v * c)
  have h1 : |(round p (v * c) : Real) - v * c| ≤ |(v : Real) * c| / 2 ^ p := by exact_mod_cast h1
  have hd0 : 0 ≤ d * y := le_trans (abs_nonneg _) hd
  have h2 : |(v : Real) * c - v * y| ≤ |(v : Real)| * (d * y) := by
    rw [← mul_sub, abs_mul]
    gcongr
  have hc : |(c : Real)| ≤ (1 + d) * y := by
    have := abs_add_le ((c : Real) - y) y
    rw [sub_add_cancel, abs_of_pos hy] at this
    linarith
  have h3 : |(v : Real) * c| / 2 ^ p ≤ |(v : Real)| * ((1 + d) * y) / 2 ^ 24 := by
    rw [abs_mul]
    have hpow : (2 : Real) ^ 24 ≤ 2 ^ p := pow_le_pow_right₀ (by norm_num) hp
    have : |(v : Real)| * |(c : Real)| ≤ |(v : Real)| * ((1 + d) * y) := by gcongr
    exact div_le_div₀ (le_trans (by positivity) this) this (by positivity) hpow
  have h4 := abs_sub_le (round p (v * c) : Real) (v * c) (v * y)
  have h5 : |(v : Real)| * ((1 + d) * y) / 2 ^ 24 + |(v : Real)| * (d * y) ≤ |(v : Real) * y| / 2 ^ 23 := by
    rw [abs_mul, abs_of_pos hy]
    have : (|(v : Real)| * y) * (d + (1 + d) / 2 ^ 24) ≤ (|(v : Real)| * y) * (1 / 2 ^ 23) := by gcongr
    calc _ = (|(v : Real)| * y) * (d + (1 + d) / 2 ^ 24) := by ring
      _ ≤ _ := this
      _ = _ := by ring
  linarith

/-- A rounded product is no better than its factor. -/
theorem product_ge (p : Nat) (v c : Rat) (y d e : Real) (hp : 53 ≤ p) (hy : 0 < y) (hd : d * y ≤ |(c : Real) - y|)
    (hc : |(c : Real)| ≤ 2 * y) (he : e + 2 / 2 ^ 53 ≤ d) : |(v : Real) * y| * e ≤ |(round p (v * c) : Real) - v * y| := by
  have h1 := round_err p (v * c)
  have h1 : |(round p (v * c) : Real) - v * c| ≤ |(v : Real) * c| / 2 ^ p := by exact_mod_cast h1
  have h2 : |(v : Real)| * (d * y) ≤ |(v : Real) * c - v * y| := by
    rw [← mul_sub, abs_mul]
    gcongr
  have h3 : |(v : Real) * c| / 2 ^ p ≤ |(v : Real)| * (2 * y) / 2 ^ 53 := by
    rw [abs_mul]
    have hpow : (2 : Real) ^ 53 ≤ 2 ^ p := pow_le_pow_right₀ (by norm_num) hp
    have : |(v : Real)| * |(c : Real)| ≤ |(v : Real)| * (2 * y) := by gcongr
    exact div_le_div₀ (le_trans (by positivity) this) this (by positivity) hpow
  have h4 := abs_sub_le ((v : Real) * c) (round p (v * c) : Real) (v * y)
  rw [abs_sub_comm ((v : Real) * c) (round p (v * c) : Real)] at h4
  have h5 : |(v : Real) * y| * e + |(v : Real)| * (2 * y) / 2 ^ 53 ≤ |(v : Real)| * (d * y) := by
    rw [abs_mul, abs_of_pos hy]
    have : (|(v : Real)| * y) * (e + 2 / 2 ^ 53) ≤ (|(v : Real)| * y) * d := by gcongr
    calc _ = (|(v : Real)| * y) * (e + 2 / 2 ^ 53) := by ring
      _ ≤ _ := this
      _ = _ := by ring
  linarith

theorem perDegree_bounds : |(perDegree : Real) - Real.pi / 180| ≤ 8 / 10 ^ 9 * (Real.pi / 180) ∧
    7 / 10 ^ 9 * (Real.pi / 180) ≤ |(perDegree : Real) - Real.pi / 180| := by
  have h1 := Real.pi_gt_d20
  have h2 := Real.pi_lt_d20
  rw [perDegree_eq]
  have hn : ((9370165 / 2 ^ 29 : Rat) : Real) - Real.pi / 180 ≤ 0 := by
    push_cast; norm_num at h1 h2 ⊢; linarith
  rw [abs_of_nonpos hn]
  push_cast
  norm_num at h1 h2 ⊢
  constructor <;> linarith

theorem perRadian_bounds : |(perRadian : Real) - 180 / Real.pi| ≤ 55 / 10 ^ 9 * (180 / Real.pi) ∧
    54 / 10 ^ 9 * (180 / Real.pi) ≤ |(perRadian : Real) - 180 / Real.pi| := by
  have h1 := Real.pi_gt_d20
  have h2 := Real.pi_lt_d20
  have hp := Real.pi_pos
  rw [perRadian_eq]
  have e : ((15019744 / 2 ^ 18 : Rat) : Real) - 180 / Real.pi = (15019744 / 2 ^ 18 * Real.pi - 180) / Real.pi := by
    push_cast; field_simp
  have hn : (15019744 / 2 ^ 18 * Real.pi - 180) / Real.pi ≤ 0 := by
    refine div_nonpos_of_nonpos_of_nonneg ?_ hp.le
    norm_num at h1 h2 ⊢; linarith
  rw [e, abs_of_nonpos hn, ← neg_div]
  simp only [← mul_div_assoc]
  constructor
  · gcongr; norm_num at h1 h2 ⊢; linarith
  · gcongr; norm_num at h1 h2 ⊢; linarith

end Rpp.Angle
