import Verif.Model.Duration
import Verif.Proof.Ieee
import Verif.Proof.Angle

/-! # Proofs about durations -/

namespace Rpp.Duration
open Rpp Rpp.Ieee Rpp.Angle

/-- A number between two powers of two stays between them. -/
theorem keep {p : Nat} (hp : 1 ≤ p) {a b : Int} {x : Rat} (h1 : 2 ^ a ≤ x) (h2 : x ≤ 2 ^ b) :
    (2 : Rat) ^ a ≤ Angle.round p x ∧ Angle.round p x ≤ 2 ^ b := ⟨round_pow_le hp h1, round_le_pow hp h2⟩

theorem fin_pos {f : Format} (hp : 1 ≤ f.p) {a b : Int} {x : Rat} (ha : f.emin ≤ a) (hb : b < f.emax) (h1 : 2 ^ a ≤ x) (h2 : x ≤ 2 ^ b) :
    rnd f x = .fin (Angle.round f.p x) := by
  have h0 : (0 : Rat) < 2 ^ a := by positivity
  refine rnd_fin hp hb (Or.inr ?_) ?_
  · rw [abs_of_pos (by linarith)]
    exact (zpow_le_zpow_right₀ (by norm_num) ha).trans h1
  · rw [abs_of_pos (by linarith)]; exact h2

theorem fin_zero {f : Format} (hp : 1 ≤ f.p) (hf : 0 < f.emax) : rnd f 0 = .fin 0 := by
  have := rnd_fin (f := f) hp (x := 0) (k := 0) hf (Or.inl rfl) (by simp)
  rwa [round_zero] at this

/-- The quotient of `d` and a number `g` of moderate size, in `f64`, converted to `f32`. -/
theorem quotient {d : Nat} (hd : d < 2 ^ 64) {g : Rat} (h1 : (2 : Rat) ^ (-11 : Int) ≤ g) (h2 : g ≤ 2 ^ (64 : Int)) :
    toF32 (div f64 (ofU64 d) (.fin g)) = .fin (Angle.round 24 (Angle.round 53 (Angle.round 53 d / g))) := by
  have hg : 0 < g := lt_of_lt_of_le (by positivity) h1
  unfold ofU64
  rcases Nat.eq_zero_or_pos d with rfl | h0
  · rw [Nat.cast_zero, fin_zero (by decide) (by decide)]
    simp only [div, if_neg hg.ne', zero_div, round_zero]
    rw [fin_zero (by decide) (by decide)]
    simp only [toF32]
    rw [fin_zero (by decide) (by decide)]
  · have hd1 : (2 : Rat) ^ (0 : Int) ≤ d := by rw [zpow_zero]; exact_mod_cast h0
    have hd2 : (d : Rat) ≤ 2 ^ (64 : Int) := by
      have : (d : Rat) ≤ ((2 ^ 64 : Nat) : Rat) := by exact_mod_cast hd.le
      refine this.trans (le_of_eq ?_)
      norm_num
    rw [fin_pos (by decide) (show f64.emin ≤ 0 by decide) (show (64 : Int) < f64.emax by decide) hd1 hd2]
    obtain ⟨k1, k2⟩ := keep (p := 53) (by decide) hd1 hd2
    have q1 : (2 : Rat) ^ (-64 : Int) ≤ Angle.round 53 d / g := by
      rw [le_div_iff₀ hg]
      refine le_trans ?_ k1
      calc (2 : Rat) ^ (-64 : Int) * g ≤ 2 ^ (-64 : Int) * 2 ^ (64 : Int) := by gcongr
        _ = _ := by rw [← zpow_add₀ (by norm_num)]; norm_num
    have q2 : Angle.round 53 d / g ≤ (2 : Rat) ^ (75 : Int) := by
      rw [div_le_iff₀ hg]
      refine k2.trans ?_
      calc (2 : Rat) ^ (64 : Int) = 2 ^ (75 : Int) * 2 ^ (-11 : Int) := by rw [← zpow_add₀ (by norm_num)]; norm_num
        _ ≤ _ := by gcongr
    have e : div f64 (.fin (Angle.round 53 d)) (.fin g) = .fin (Angle.round 53 (Angle.round 53 d / g)) := by
      simp only [div, if_neg hg.ne']
      exact fin_pos (by decide) (show f64.emin ≤ -64 by decide) (show (75 : Int) < f64.emax by decide) q1 q2
    show toF32 (div f64 (.fin (Angle.round 53 d)) (.fin g)) = _
    rw [e]
    obtain ⟨r1, r2⟩ := keep (p := 53) (by decide) q1 q2
    exact fin_pos (f := f32) (by decide) (show f32.emin ≤ -64 by decide) (show (75 : Int) < f32.emax by decide) r1 r2

theorem freq_bounds {freq : Nat} (h0 : 0 < freq) (h1 : freq < 2 ^ 64) :
    ofU64 freq = .fin (Angle.round 53 freq) ∧ (2 : Rat) ^ (0 : Int) ≤ Angle.round 53 freq ∧ Angle.round 53 freq ≤ (2 : Rat) ^ (64 : Int) := by
  have hd1 : (2 : Rat) ^ (0 : Int) ≤ freq := by rw [zpow_zero]; exact_mod_cast h0
  have hd2 : (freq : Rat) ≤ 2 ^ (64 : Int) := by
    have : (freq : Rat) ≤ ((2 ^ 64 : Nat) : Rat) := by exact_mod_cast h1.le
    refine this.trans (le_of_eq ?_)
    norm_num
  exact ⟨fin_pos (by decide) (show f64.emin ≤ 0 by decide) (show (64 : Int) < f64.emax by decide) hd1 hd2, keep (by decide) hd1 hd2⟩

theorem ms_eq {freq d : Nat} (h0 : 0 < freq) (h1 : freq < 2 ^ 64) (hd : d < 2 ^ 64) :
    ms freq d = .fin (Angle.round 24 (Angle.round 53 (Angle.round 53 d / Angle.round 53 (Angle.round 53 freq / 1000)))) := by
  obtain ⟨e, b1, b2⟩ := freq_bounds h0 h1
  have c1 : (2 : Rat) ^ (-11 : Int) ≤ Angle.round 53 freq / 1000 := by
    rw [le_div_iff₀ (by norm_num)]; refine le_trans ?_ b1; norm_num
  have c2 : Angle.round 53 freq / 1000 ≤ (2 : Rat) ^ (64 : Int) := by
    rw [div_le_iff₀ (by norm_num)]; refine b2.trans ?_; norm_num
  have e2 : div f64 (ofU64 freq) (.fin 1000) = .fin (Angle.round 53 (Angle.round 53 freq / 1000)) := by
    rw [e]
    simp only [div, if_neg (by norm_num : ¬ (1000 : Rat) = 0)]
    exact fin_pos (by decide) (show f64.emin ≤ -11 by decide) (show (64 : Int) < f64.emax by decide) c1 c2
  unfold ms
  rw [e2]
  obtain ⟨k1, k2⟩ := keep (p := 53) (by decide) c1 c2
  exact quotient hd k1 k2

theorem s_eq {freq d : Nat} (h0 : 0 < freq) (h1 : freq < 2 ^ 64) (hd : d < 2 ^ 64) :
    s freq d = .fin (Angle.round 24 (Angle.round 53 (Angle.round 53 d / Angle.round 53 freq))) := by
  obtain ⟨e, b1, b2⟩ := freq_bounds h0 h1
  unfold s
  rw [e]
  exact quotient hd (le_trans (by norm_num) b1) b2

/-- Rounding changes a number by little. -/
theorem near {p : Nat} {x : Rat} (hx : 0 ≤ x) : x * (1 - 1 / 2 ^ p) ≤ Angle.round p x ∧ Angle.round p x ≤ x * (1 + 1 / 2 ^ p) := by
  have h := abs_le.1 (round_err p x)
  rw [abs_of_nonneg hx] at h
  have e : x / 2 ^ p = x * (1 / 2 ^ p) := by ring
  rw [e] at h
  constructor <;> linarith [h.1, h.2]

/-- The errors together. -/
theorem accuracy {d g G : Rat} (hd : 0 ≤ d) (hG : 0 < G) (g1 : G * (1 - 1 / 2 ^ 53) ^ 2 ≤ g) (g2 : g ≤ G * (1 + 1 / 2 ^ 53) ^ 2) :
    |Angle.round 24 (Angle.round 53 (Angle.round 53 d / g)) - d / G| ≤ d / G * (1 / 2 ^ 24 + 1 / 2 ^ 50) := by
  have hg : 0 < g := lt_of_lt_of_le (by positivity) g1
  have y0 : 0 ≤ d / G := div_nonneg hd hG.le
  obtain ⟨a1, a2⟩ := near (p := 53) hd
  have a0 : 0 ≤ Angle.round 53 d := round_nonneg 53 hd
  have q0 : 0 ≤ Angle.round 53 d / g := div_nonneg a0 hg.le
  have lo : d / G * ((1 - 1 / 2 ^ 53) / (1 + 1 / 2 ^ 53) ^ 2) ≤ Angle.round 53 d / g := by
    rw [show d / G * ((1 - 1 / 2 ^ 53) / (1 + 1 / 2 ^ 53) ^ 2) = d * (1 - 1 / 2 ^ 53) / (G * (1 + 1 / 2 ^ 53) ^ 2) by
      field_simp]
    exact div_le_div₀ a0 a1 hg g2
  have hi : Angle.round 53 d / g ≤ d / G * ((1 + 1 / 2 ^ 53) / (1 - 1 / 2 ^ 53) ^ 2) := by
    rw [show d / G * ((1 + 1 / 2 ^ 53) / (1 - 1 / 2 ^ 53) ^ 2) = d * (1 + 1 / 2 ^ 53) / (G * (1 - 1 / 2 ^ 53) ^ 2) by
      rw [div_mul_div_comm]]
    exact div_le_div₀ (by positivity) a2 (by positivity) g1
  obtain ⟨b1, b2⟩ := near (p := 53) q0
  obtain ⟨c1, c2⟩ := near (p := 24) (round_nonneg 53 q0)
  generalize d / G = y at *
  generalize Angle.round 53 d / g = q at *
  generalize Angle.round 53 q = r at *
  generalize Angle.round 24 r = x at *
  rw [abs_le]
  constructor
  · have h1 : y * ((1 - 1 / 2 ^ 53) / (1 + 1 / 2 ^ 53) ^ 2) * (1 - 1 / 2 ^ 53) * (1 - 1 / 2 ^ 24) ≤ x := by
      refine le_trans ?_ c1
      refine mul_le_mul_of_nonneg_right (le_trans ?_ b1) (by norm_num)
      exact mul_le_mul_of_nonneg_right lo (by norm_num)
    have h2 : y * (1 - (1 / 2 ^ 24 + 1 / 2 ^ 50)) ≤ y * ((1 - 1 / 2 ^ 53) / (1 + 1 / 2 ^ 53) ^ 2) * (1 - 1 / 2 ^ 53) * (1 - 1 / 2 ^ 24) := by
      rw [mul_assoc, mul_assoc]
      exact mul_le_mul_of_nonneg_left (by norm_num) y0
    linarith
  · have h1 : x ≤ y * ((1 + 1 / 2 ^ 53) / (1 - 1 / 2 ^ 53) ^ 2) * (1 + 1 / 2 ^ 53) * (1 + 1 / 2 ^ 24) := by
      refine le_trans c2 ?_
      gcongr
      refine le_trans b2 ?_
      gcongr
    have h2 : y * ((1 + 1 / 2 ^ 53) / (1 - 1 / 2 ^ 53) ^ 2) * (1 + 1 / 2 ^ 53) * (1 + 1 / 2 ^ 24) ≤ y * (1 + (1 / 2 ^ 24 + 1 / 2 ^ 50)) := by
      rw [mul_assoc, mul_assoc]
      exact mul_le_mul_of_nonneg_left (by norm_num) y0
    linarith

end Rpp.Duration
