import Verif.Model.Lerp
import Verif.Spec.Rounding
import Verif.Proof.Angle
import Mathlib.Tactic.Linarith
import Mathlib.Tactic.Ring
import Mathlib.Tactic.SplitIfs

/-! Lemmas on rounding. -/

namespace Rpp.Angle
open Rpp.Spec

theorem nearest_int (k : Int) : nearest (k : Rat) = k := by
  unfold nearest
  simp

theorem floor_le_nearest (m : Rat) : ⌊m⌋ ≤ nearest m ∧ nearest m ≤ ⌊m⌋ + 1 := by
  unfold nearest
  dsimp only
  split
  · omega
  · split
    · omega
    · split <;> omega

theorem nearest_mono {m n : Rat} (h : m ≤ n) : nearest m ≤ nearest n := by
  have hf := Int.floor_le_floor h
  rcases lt_or_eq_of_le hf with h1 | h1
  · have := (floor_le_nearest m).2
    have := (floor_le_nearest n).1
    omega
  · unfold nearest
    dsimp only
    rw [← h1]
    have : m - (⌊m⌋ : Rat) ≤ n - ⌊m⌋ := by linarith
    generalize (⌊m⌋ : Rat) = q at this
    split_ifs <;> first | omega | (exfalso; linarith)

theorem nearest_neg (m : Rat) : nearest (-m) = -nearest m := by
  have h1 := Int.floor_le m
  have h2 := Int.lt_floor_add_one m
  by_cases hi : m = ⌊m⌋
  · rw [hi, ← Int.cast_neg, nearest_int, nearest_int]
  · have h3 : (⌊m⌋ : Rat) < m := lt_of_le_of_ne h1 (Ne.symm hi)
    have h4 : ⌊-m⌋ = -⌊m⌋ - 1 := by
      rw [Int.floor_eq_iff]
      push_cast
      constructor <;> linarith
    unfold nearest
    dsimp only
    rw [h4]
    push_cast
    generalize ⌊m⌋ = q at *
    by_cases a : m - q < 1 / 2
    · rw [if_pos a, if_neg (by linarith), if_pos (by linarith)]; ring
    · by_cases b : 1 / 2 < m - q
      · rw [if_neg a, if_pos b, if_pos (by linarith)]; ring
      · rw [if_neg a, if_neg b, if_neg (by linarith), if_neg (by linarith)]
        split <;> split <;> omega

@[simp] theorem round_zero (p : Nat) : round p 0 = 0 := by simp [round]

theorem round_neg (p : Nat) (x : Rat) : round p (-x) = -round p x := by
  unfold round
  by_cases h : x = 0
  · simp [h]
  · rw [if_neg h, if_neg (by simpa using h)]
    dsimp only
    rw [abs_neg, neg_div, nearest_neg]
    push_cast
    ring

theorem step_pos (k : Int) (p : Nat) : (0 : Rat) < 2 ^ (k - ((p : Int) - 1)) := by positivity

/-- A number of the binade `k` rounds to one between its ends. -/
theorem round_binade {p : Nat} (hp : 1 ≤ p) {x : Rat} (hx : 0 < x) :
    (2 : Rat) ^ Int.log 2 x ≤ round p x ∧ round p x ≤ 2 ^ (Int.log 2 x + 1) := by
  have hl := Int.zpow_log_le_self (b := 2) (by norm_num) hx
  have hu := Int.lt_zpow_succ_log_self (b := 2) (by norm_num) x
  push_cast at hl hu
  unfold round
  rw [if_neg hx.ne']
  dsimp only
  rw [abs_of_pos hx]
  generalize Int.log 2 x = k at *
  have hs := step_pos k p
  obtain ⟨q, rfl⟩ : ∃ q, p = q + 1 := ⟨p - 1, by omega⟩
  have e0 : (2 : Rat) ^ k = ((2 ^ q : Int) : Rat) * 2 ^ (k - (((q + 1 : Nat) : Int) - 1)) := by
    push_cast
    rw [← zpow_natCast, ← zpow_add₀ (by norm_num)]
    congr 1
    ring
  have e1 : (2 : Rat) ^ (k + 1) = ((2 ^ (q + 1) : Int) : Rat) * 2 ^ (k - (((q + 1 : Nat) : Int) - 1)) := by
    push_cast
    rw [← zpow_natCast, ← zpow_add₀ (by norm_num)]
    congr 1
    push_cast
    ring
  constructor
  · rw [e0]
    gcongr
    rw [← nearest_int (2 ^ q)]
    apply nearest_mono
    rw [le_div_iff₀ hs, ← e0]
    exact hl
  · rw [e1]
    gcongr
    rw [← nearest_int (2 ^ (q + 1))]
    apply nearest_mono
    rw [div_le_iff₀ hs, ← e1]
    exact hu.le

theorem round_nonneg (p : Nat) {x : Rat} (hx : 0 ≤ x) : 0 ≤ round p x := by
  unfold round
  split
  · exact le_refl _
  · have hs := step_pos (Int.log 2 |x|) p
    refine mul_nonneg ?_ hs.le
    have := nearest_mono (show ((0 : Int) : Rat) ≤ x / 2 ^ (Int.log 2 |x| - ((p : Int) - 1)) by
      push_cast; positivity)
    rw [nearest_int] at this
    exact_mod_cast this

theorem round_mono_pos {p : Nat} (hp : 1 ≤ p) {x y : Rat} (hx : 0 < x) (h : x ≤ y) : round p x ≤ round p y := by
  have hy : 0 < y := lt_of_lt_of_le hx h
  rcases lt_or_eq_of_le (Int.log_mono_right (b := 2) hx h) with hl | hl
  · refine (round_binade hp hx).2.trans (le_trans ?_ (round_binade hp hy).1)
    exact zpow_le_zpow_right₀ (by norm_num) (by omega)
  · unfold round
    rw [if_neg hx.ne', if_neg hy.ne']
    dsimp only
    rw [abs_of_pos hx, abs_of_pos hy, hl]
    have hs := step_pos (Int.log 2 y) p
    gcongr
    apply nearest_mono
    gcongr

/-- Rounding keeps the order. -/
theorem round_mono {p : Nat} (hp : 1 ≤ p) {x y : Rat} (h : x ≤ y) : round p x ≤ round p y := by
  rcases lt_or_ge 0 x with hx | hx
  · exact round_mono_pos hp hx h
  · rcases le_or_gt 0 y with hy | hy
    · have h1 := round_nonneg p (neg_nonneg.2 hx)
      rw [round_neg] at h1
      have := round_nonneg p hy
      linarith
    · have := round_mono_pos hp (neg_pos.2 hy) (neg_le_neg h)
      rw [round_neg, round_neg] at this
      linarith

/-- A number of the format stays what it is. -/
theorem round_float {p : Nat} {x : Rat} (h : IsFloat p x) : round p x = x := by
  obtain ⟨m, e, hm, rfl⟩ := h
  by_cases h0 : (m : Rat) * 2 ^ e = 0
  · rw [h0, round_zero]
  unfold round
  rw [if_neg h0]
  dsimp only
  have hx : 0 < |(m : Rat) * 2 ^ e| := abs_pos.2 h0
  have hl := Int.zpow_log_le_self (b := 2) (by norm_num) hx
  push_cast at hl
  generalize Int.log 2 |(m : Rat) * 2 ^ e| = k at *
  have he : k - ((p : Int) - 1) ≤ e := by
    by_contra hc
    have h1 : |(m : Rat) * 2 ^ e| < 2 ^ k := by
      rw [abs_mul, abs_of_pos (by positivity : (0 : Rat) < 2 ^ e)]
      have : |(m : Rat)| < 2 ^ (p : Int) := by rw [zpow_natCast]; exact_mod_cast hm
      calc |(m : Rat)| * 2 ^ e < 2 ^ (p : Int) * 2 ^ e := by gcongr
        _ = 2 ^ ((p : Int) + e) := by rw [zpow_add₀ (by norm_num)]
        _ ≤ 2 ^ k := zpow_le_zpow_right₀ (by norm_num) (by omega)
    linarith
  have hs := step_pos k p
  have e1 : (m : Rat) * 2 ^ e = ((m * 2 ^ (e - (k - ((p : Int) - 1))).toNat : Int) : Rat) * 2 ^ (k - ((p : Int) - 1)) := by
    push_cast
    rw [mul_assoc, ← zpow_natCast, ← zpow_add₀ (by norm_num)]
    congr 2
    omega
  rw [e1, mul_div_cancel_right₀ _ hs.ne', nearest_int]

/-- Sterbenz: numbers within a factor of two have an exact difference. -/
theorem sterbenz {p : Nat} {a b : Rat} (ha : IsFloat p a) (hb : IsFloat p b) (h1 : a / 2 ≤ b) (h2 : b ≤ 2 * a) :
    IsFloat p (b - a) := by
  obtain ⟨m, e, hm, rfl⟩ := ha
  obtain ⟨n, f, hn, rfl⟩ := hb
  have key (g : Int) (he : g ≤ e) (hf : g ≤ f) (hb : |(n : Rat) * 2 ^ f - m * 2 ^ e| < 2 ^ p * 2 ^ g) :
      IsFloat p ((n : Rat) * 2 ^ f - m * 2 ^ e) := by
    have e1 : (n : Rat) * 2 ^ f - m * 2 ^ e = ((n * 2 ^ (f - g).toNat - m * 2 ^ (e - g).toNat : Int) : Rat) * 2 ^ g := by
      push_cast
      rw [sub_mul, mul_assoc, mul_assoc, ← zpow_natCast, ← zpow_natCast, ← zpow_add₀ (by norm_num), ← zpow_add₀ (by norm_num)]
      congr 3 <;> omega
    refine ⟨_, g, ?_, e1⟩
    rw [e1, abs_mul, abs_of_pos (by positivity : (0 : Rat) < 2 ^ g)] at hb
    have := lt_of_mul_lt_mul_right hb (by positivity)
    exact_mod_cast this
  have hm' : (m : Rat) * 2 ^ e < 2 ^ p * 2 ^ e := by
    gcongr
    exact_mod_cast lt_of_le_of_lt (le_abs_self m) hm
  have hn' : (n : Rat) * 2 ^ f < 2 ^ p * 2 ^ f := by
    gcongr
    exact_mod_cast lt_of_le_of_lt (le_abs_self n) hn
  rcases le_total e f with h | h
  · exact key e le_rfl h (by rw [abs_lt]; constructor <;> linarith)
  · exact key f h le_rfl (by rw [abs_lt]; constructor <;> linarith)

theorem isFloat_int {p : Nat} {k : Int} (h : |k| < 2 ^ p) : IsFloat p k := ⟨k, 0, h, by simp⟩

end Rpp.Angle
