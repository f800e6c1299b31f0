import Verif.Proof.Rounding
import Verif.Proof.Vect
import Mathlib.Tactic.Positivity
import Mathlib.Tactic.FieldSimp

/-! Lemmas on interpolation. -/

namespace Rpp.Lerp
open Rpp.Angle Rpp.Spec

theorem isFloat_neg {p : Nat} {x : Rat} (h : IsFloat p x) : IsFloat p (-x) := by
  obtain ⟨m, e, hm, rfl⟩ := h
  exact ⟨-m, e, by rwa [abs_neg], by push_cast; ring⟩

theorem round_isFloat {p : Nat} (hp : 1 ≤ p) (x : Rat) : IsFloat p (round p x) := by
  have pos (x : Rat) (hx : 0 < x) : IsFloat p (round p x) := by
    have h := (round_binade hp hx).2
    have h0 := (round_binade hp hx).1
    have hr : round p x = nearest (x / 2 ^ (Int.log 2 x - ((p : Int) - 1))) * 2 ^ (Int.log 2 x - ((p : Int) - 1)) := by
      unfold Angle.round
      rw [if_neg hx.ne']
      dsimp only
      rw [abs_of_pos hx]
    rw [hr] at h h0 ⊢
    generalize nearest (x / 2 ^ (Int.log 2 x - ((p : Int) - 1))) = m at *
    generalize Int.log 2 x = k at *
    have hs := step_pos k p
    have hm0 : 0 ≤ m := by
      by_contra hc
      have : (m : Rat) < 0 := by exact_mod_cast not_le.1 hc
      have := mul_neg_of_neg_of_pos this hs
      have : (0 : Rat) < 2 ^ k := by positivity
      linarith
    have hm : m ≤ 2 ^ p := by
      have e1 : (2 : Rat) ^ (k + 1) = ((2 ^ p : Int) : Rat) * 2 ^ (k - ((p : Int) - 1)) := by
        push_cast
        rw [← zpow_natCast, ← zpow_add₀ (by norm_num)]
        congr 1
        ring
      rw [e1] at h
      exact_mod_cast le_of_mul_le_mul_right h hs
    rcases lt_or_eq_of_le hm with h1 | h1
    · exact ⟨m, _, by rwa [abs_of_nonneg hm0], rfl⟩
    · refine ⟨1, k + 1, ?_, ?_⟩
      · rw [abs_one]
        exact_mod_cast Nat.one_lt_two_pow (by omega)
      · rw [h1]
        push_cast
        rw [one_mul, ← zpow_natCast, ← zpow_add₀ (by norm_num)]
        congr 1
        ring
  rcases lt_trichotomy x 0 with h | h | h
  · have := isFloat_neg (pos (-x) (by linarith))
    rwa [round_neg, neg_neg] at this
  · rw [h, Angle.round_zero]
    exact ⟨0, 0, by simp, by simp⟩
  · exact pos x h

theorem isFloat_one {p : Nat} (hp : 1 ≤ p) : IsFloat p 1 := by
  have : IsFloat p ((1 : Int) : Rat) := isFloat_int (by rw [abs_one]; exact_mod_cast Nat.one_lt_two_pow (by omega))
  simpa using this

theorem round_one {p : Nat} (hp : 1 ≤ p) : round p 1 = 1 := round_float (isFloat_one hp)

theorem round_pos {p : Nat} (hp : 1 ≤ p) {x : Rat} (hx : 0 < x) : 0 < round p x :=
  lt_of_lt_of_le (by positivity) (round_binade hp hx).1

/-- Half a step above one is rounded to one. -/
theorem round_tie {p : Nat} (hp : 2 ≤ p) : round p (1 + 1 / 2 ^ p) = 1 := by
  obtain ⟨q, rfl⟩ : ∃ q, p = q + 2 := ⟨p - 2, by omega⟩
  have hu : (0 : Rat) < 1 / 2 ^ (q + 2) := by positivity
  have hu1 : (1 : Rat) / 2 ^ (q + 2) ≤ 1 / 4 := by
    rw [pow_add]
    have : (1 : Rat) ≤ 2 ^ q := one_le_pow₀ (by norm_num)
    rw [div_le_div_iff₀ (by positivity) (by norm_num)]
    linarith
  have hl : Int.log 2 ((1 : Rat) + 1 / 2 ^ (q + 2)) = 0 := by
    have hx : (0 : Rat) < 1 + 1 / 2 ^ (q + 2) := by linarith
    apply le_antisymm
    · have := (Int.lt_zpow_iff_log_lt (b := 2) (by norm_num) (x := 1) hx).1 (by
        rw [zpow_one]; push_cast; linarith)
      omega
    · have := (Int.zpow_le_iff_le_log (b := 2) (by norm_num) (x := 0) hx).1 (by norm_num)
      omega
  unfold Angle.round
  rw [if_neg (by linarith)]
  dsimp only
  rw [abs_of_pos (by linarith), hl]
  have e : (2 : Rat) ^ ((0 : Int) - (((q + 2 : Nat) : Int) - 1)) = 1 / 2 ^ (q + 1) := by
    rw [show (0 : Int) - (((q + 2 : Nat) : Int) - 1) = -((q + 1 : Nat) : Int) by push_cast; ring, zpow_neg, zpow_natCast, one_div]
  rw [e]
  have e2 : ((1 : Rat) + 1 / 2 ^ (q + 2)) / (1 / 2 ^ (q + 1)) = ((2 ^ (q + 1) : Int) : Rat) + 1 / 2 := by
    push_cast
    field_simp
    ring
  have e3 : nearest (((2 ^ (q + 1) : Int) : Rat) + 1 / 2) = 2 ^ (q + 1) := by
    have hf : ⌊((2 ^ (q + 1) : Int) : Rat) + 1 / 2⌋ = 2 ^ (q + 1) := by
      rw [Int.floor_eq_iff]
      constructor <;> linarith
    unfold nearest
    dsimp only
    rw [hf, if_neg (by norm_num), if_neg (by norm_num), if_pos (by rw [pow_succ]; omega)]
  rw [e2, e3]
  push_cast
  field_simp

theorem abs_round_le (p : Nat) (x : Rat) : |round p x| ≤ |x| * (1 + 1 / 2 ^ p) := by
  have h1 := round_err p x
  have h2 := abs_add_le (round p x - x) x
  rw [sub_add_cancel] at h2
  have : |x| * (1 + 1 / 2 ^ p) = |x| / 2 ^ p + |x| := by ring
  linarith

theorem round_le (p : Nat) {x : Rat} (hx : 0 ≤ x) : round p x ≤ x * (1 + 1 / 2 ^ p) := by
  have := abs_round_le p x
  rw [abs_of_nonneg hx] at this
  exact (le_abs_self _).trans this

theorem isFloat_two_mul {p : Nat} {x : Rat} (h : IsFloat p x) : IsFloat p (2 * x) := by
  obtain ⟨m, e, hm, rfl⟩ := h
  refine ⟨m, e + 1, hm, ?_⟩
  rw [zpow_add₀ (by norm_num), zpow_one]
  ring

/-- The polynomial of `smoothstep` stays below one. -/
theorem cubic_le_one {p : Nat} (hp : 2 ≤ p) {t : Rat} (hf : IsFloat p t) (h0 : 0 ≤ t) (h1 : t ≤ 1) : cubic p t ≤ 1 := by
  have hu : (0 : Rat) < 1 / 2 ^ p := by positivity
  have hu1 : (1 : Rat) / 2 ^ p ≤ 1 / 4 := by
    have : (2 : Rat) ^ 2 ≤ 2 ^ p := pow_le_pow_right₀ (by norm_num) hp
    rw [div_le_div_iff₀ (by positivity) (by norm_num)]
    linarith
  unfold cubic
  rw [round_float (isFloat_two_mul hf)]
  suffices h : round p (t * t) * round p (3 - 2 * t) ≤ 1 + 1 / 2 ^ p by
    exact (round_mono (by omega) h).trans (round_tie hp).le
  have ht2 : 0 ≤ t * t := mul_nonneg h0 h0
  have h3 : 0 ≤ round p (3 - 2 * t) := round_nonneg p (by linarith)
  by_cases hs : 1 / 2 ^ p ≤ (1 - t) * (1 - t)
  · have a1 := round_le p ht2
    have a2 := round_le p (show (0 : Rat) ≤ 3 - 2 * t by linarith)
    generalize (1 : Rat) / 2 ^ p = u at *
    have a3 : round p (t * t) * round p (3 - 2 * t) ≤ t * t * (1 + u) * ((3 - 2 * t) * (1 + u)) :=
      mul_le_mul a1 a2 h3 (by positivity)
    refine a3.trans ?_
    have b1 : t * t * (3 - 2 * t) ≤ 1 - (1 - t) * (1 - t) := by nlinarith [mul_nonneg h0 (sub_nonneg.2 h1)]
    have b2 : t * t * (3 - 2 * t) ≤ 1 - u := b1.trans (by linarith)
    calc t * t * (1 + u) * ((3 - 2 * t) * (1 + u)) = t * t * (3 - 2 * t) * ((1 + u) * (1 + u)) := by ring
      _ ≤ (1 - u) * ((1 + u) * (1 + u)) := by gcongr
      _ ≤ 1 + u := by nlinarith [mul_pos hu hu]
  · have hs := not_le.1 hs
    have hhalf : 1 / 2 < t := by nlinarith
    obtain ⟨m, e, hm, he⟩ := hf
    -- `t` is a multiple of `2 ^ -p`
    have hep : -(p : Int) ≤ e := by
      by_contra hc
      have c1 : t ≤ 2 ^ (p : Int) * 2 ^ e := by
        rw [he, zpow_natCast]
        gcongr
        exact_mod_cast (lt_of_le_of_lt (le_abs_self m) hm).le
      have c2 : (2 : Rat) ^ (p : Int) * 2 ^ e ≤ 2 ^ (-1 : Int) := by
        rw [← zpow_add₀ (by norm_num)]
        exact zpow_le_zpow_right₀ (by norm_num) (by omega)
      rw [show (2 : Rat) ^ (-1 : Int) = 1 / 2 by norm_num] at c2
      linarith
    obtain ⟨k, hk⟩ : ∃ k : Int, 1 - t = k * (1 / 2 ^ p) := by
      refine ⟨2 ^ p - m * 2 ^ (e + p).toNat, ?_⟩
      have : t = m * (2 : Rat) ^ (e + p).toNat * (1 / 2 ^ p) := by
        rw [he, mul_assoc, one_div, ← zpow_natCast, ← zpow_natCast, ← zpow_neg, ← zpow_add₀ (by norm_num)]
        congr 2
        omega
      push_cast
      rw [sub_mul, ← this]
      field_simp
    have hpp : (2 : Rat) ^ p * (1 / 2 ^ p) = 1 := by field_simp
    by_cases hk0 : k = 0
    · rw [hk0] at hk
      have : t = 1 := by push_cast at hk; linarith
      rw [this]
      norm_num
      rw [round_one (by omega)]
      linarith [show (0 : Rat) ≤ (2 ^ p)⁻¹ by positivity]
    · have hkp : 0 < k := by
        have : (0 : Rat) ≤ k * (1 / 2 ^ p) := by linarith
        have := nonneg_of_mul_nonneg_left this hu
        have : 0 ≤ k := by exact_mod_cast this
        omega
      have hk1 : (1 : Rat) ≤ k := by exact_mod_cast hkp
      have hk2 : 2 * k < 2 ^ p := by
        have : 2 * (k * (1 / 2 ^ p)) < (2 : Rat) ^ p * (1 / 2 ^ p) := by rw [hpp, ← hk]; linarith
        have : ((2 * k : Int) : Rat) * (1 / 2 ^ p) < (2 : Rat) ^ p * (1 / 2 ^ p) := by push_cast; linarith
        exact_mod_cast lt_of_mul_lt_mul_right this hu.le
      have f1 : IsFloat p (3 - 2 * t) := by
        obtain ⟨q, rfl⟩ : ∃ q, p = q + 1 := ⟨p - 1, by omega⟩
        refine ⟨2 ^ q + k, -(q : Int), ?_, ?_⟩
        · rw [pow_succ] at hk2 ⊢
          rw [abs_of_pos (by positivity)]
          omega
        · have : t = 1 - k * (1 / 2 ^ (q + 1)) := by linarith
          rw [this, zpow_neg, zpow_natCast]
          push_cast
          field_simp
          ring
      have f2 : IsFloat p (1 - 2 * (1 - t) + 1 / 2 ^ p) := by
        refine ⟨2 ^ p - 2 * k + 1, -(p : Int), ?_, ?_⟩
        · rw [abs_lt]
          constructor <;> omega
        · rw [hk, zpow_neg, zpow_natCast]
          push_cast
          field_simp
      have a1 : round p (t * t) ≤ 1 - 2 * (1 - t) + 1 / 2 ^ p := by
        rw [← round_float f2]
        exact round_mono (by omega) (by nlinarith)
      rw [round_float f1]
      have hku : 1 / 2 ^ p ≤ 1 - t := by rw [hk]; nlinarith
      generalize (1 : Rat) / 2 ^ p = u at *
      calc round p (t * t) * (3 - 2 * t) ≤ (1 - 2 * (1 - t) + u) * (3 - 2 * t) := by
            gcongr
            linarith
        _ ≤ 1 + u := by nlinarith

theorem clamp_cases (x : Rat) : clamp x 0 1 = if x ≤ 0 then 0 else if 1 ≤ x then 1 else x := by
  unfold clamp min' max'
  split_ifs <;> first | rfl | linarith

theorem ramp_props {p : Nat} (hp : 1 ≤ p) (a b : Rat) : IsFloat p (ramp p a b) ∧ 0 ≤ ramp p a b ∧ ramp p a b ≤ 1 := by
  have z : IsFloat p (0 : Rat) := ⟨0, 0, by simp, by simp⟩
  unfold ramp
  rw [clamp_cases]
  split_ifs
  · exact ⟨isFloat_one hp, by norm_num, by norm_num⟩
  · exact ⟨z, by norm_num, by norm_num⟩
  · exact ⟨z, by norm_num, by norm_num⟩
  · exact ⟨isFloat_one hp, by norm_num, by norm_num⟩
  · exact ⟨round_isFloat hp _, by linarith, by linarith⟩

theorem cubic_zero (p : Nat) : cubic p 0 = 0 := by simp [cubic]

theorem cubic_one {p : Nat} (hp : 2 ≤ p) : cubic p 1 = 1 := by
  have h2 : round p (2 * 1) = 2 * 1 := round_float (isFloat_two_mul (isFloat_one (by omega)))
  unfold cubic
  rw [h2]
  norm_num
  rw [round_one (by omega)]
  norm_num
  rw [round_one (by omega)]

end Rpp.Lerp
