import Verif.Spec.Limits
import Verif.Proof.FloatText

/-!
# Proofs about limits of types
-/

namespace Rpp.Limits

open Rpp.Ieee Rpp.Spec Spec

theorem unsigned_range {w : Nat} (b : BitVec w) {n : Int} (hn : n = 2 ^ w - 1) : 0 ≤ (b.toNat : Int) ∧ (b.toNat : Int) ≤ n := by
  have h : (b.toNat : Int) < 2 ^ w := by exact_mod_cast b.isLt
  omega

theorem signed_range {w : Nat} (b : BitVec w) {m n : Int} (hm : m = - 2 ^ (w - 1)) (hn : n = 2 ^ (w - 1) - 1) : m ≤ b.toInt ∧ b.toInt ≤ n := by
  have h1 := BitVec.le_toInt b
  have h2 := BitVec.toInt_lt (x := b)
  rw [hm, hn]
  generalize b.toInt = i at *
  by_cases hw : w = 0
  · subst hw
    simp at h1 h2 ⊢
    omega
  · omega

theorem isFloat_of_num {t : FloatTy} {x : Rat} (h : Num t x) : IsFloat (digits t) x := by
  obtain ⟨m, e, hm, _, hx, _⟩ := h
  exact ⟨m, e, hm, hx⟩

theorem fmax_eq (t : FloatTy) : fmax t = .fin ((2 ^ digits t - 1 : Int) * 2 ^ (bound t - digits t)) := by
  cases t <;> decide +kernel

theorem smallest_norm_eq (t : FloatTy) : smallest_norm t = .fin (2 ^ least t) := by
  cases t <;> decide +kernel

theorem smallest_denorm_eq (t : FloatTy) : smallest_denorm t = .fin (2 ^ (least t - (digits t - 1))) := by
  cases t <;> decide +kernel

theorem epsilon_eq (t : FloatTy) : epsilon t = .fin (2 ^ (1 - (digits t : Int))) := by
  cases t <;> decide +kernel

theorem digits_pos (t : FloatTy) : 1 ≤ digits t := by cases t <;> decide

theorem bound_range (t : FloatTy) : least t - (digits t - 1) ≤ bound t - digits t ∧ 0 < bound t := by
  cases t <;> decide

theorem num_neg {t : FloatTy} {x : Rat} (h : Num t x) : Num t (-x) := by
  obtain ⟨m, e, hm, he, hx, hb⟩ := h
  exact ⟨-m, e, by rwa [abs_neg], he, by rw [hx]; push_cast; ring, by rwa [abs_neg]⟩

/-- The largest number. -/
theorem largest (t : FloatTy) : Num t ((2 ^ digits t - 1 : Int) * 2 ^ (bound t - digits t)) ∧
    ∀ x, Num t x → x ≤ (2 ^ digits t - 1 : Int) * 2 ^ (bound t - digits t) := by
  have hp : (0 : Rat) < 2 ^ (bound t - digits t) := by positivity
  have h1 : (1 : Int) ≤ 2 ^ digits t := one_le_pow₀ (by norm_num)
  have hsplit : (2 : Rat) ^ bound t = ((2 ^ digits t : Int) : Rat) * 2 ^ (bound t - digits t) := by
    push_cast
    rw [← zpow_natCast, ← zpow_add₀ (by norm_num)]
    congr 1
    ring
  refine ⟨⟨2 ^ digits t - 1, bound t - digits t, ?_, (bound_range t).1, rfl, ?_⟩, ?_⟩
  · rw [abs_of_nonneg (by omega)]
    omega
  · have h2 : (0 : Rat) ≤ ((2 ^ digits t - 1 : Int) : Rat) := by exact_mod_cast (by omega : (0 : Int) ≤ 2 ^ digits t - 1)
    rw [abs_of_nonneg (by positivity), hsplit]
    refine mul_lt_mul_of_pos_right ?_ hp
    exact_mod_cast (by omega : (2 : Int) ^ digits t - 1 < 2 ^ digits t)
  · intro x hx
    rcases lt_or_ge x (2 ^ (bound t - 1)) with hlt | hge
    · refine hlt.le.trans ?_
      have e : (2 : Rat) ^ (bound t - 1) = ((2 ^ (digits t - 1) : Int) : Rat) * 2 ^ (bound t - digits t) := by
        push_cast
        rw [← zpow_natCast, ← zpow_add₀ (by norm_num)]
        congr 1
        have := digits_pos t
        omega
      rw [e]
      refine mul_le_mul_of_nonneg_right ?_ hp.le
      have h3 : (2 : Int) ^ digits t = 2 * 2 ^ (digits t - 1) := by
        rw [← pow_succ', Nat.sub_add_cancel (digits_pos t)]
      have h4 : (1 : Int) ≤ 2 ^ (digits t - 1) := one_le_pow₀ (by norm_num)
      exact_mod_cast (by omega : (2 : Int) ^ (digits t - 1) ≤ 2 ^ digits t - 1)
    · obtain ⟨j, hj⟩ := FloatText.float_grid (isFloat_of_num hx) (hge.trans (le_abs_self x))
      rw [show bound t - 1 - ((digits t : Int) - 1) = bound t - digits t by ring] at hj
      have hb : x < 2 ^ bound t := by
        obtain ⟨_, _, _, _, _, hb⟩ := hx
        exact (le_abs_self x).trans_lt hb
      rw [hj, hsplit] at hb
      have hb' := lt_of_mul_lt_mul_right hb hp.le
      have hb'' : j < 2 ^ digits t := by exact_mod_cast hb'
      rw [hj]
      refine mul_le_mul_of_nonneg_right ?_ hp.le
      exact_mod_cast (by omega : j ≤ 2 ^ digits t - 1)

/-- The smallest normal number. -/
theorem smallest_normal (t : FloatTy) : Normal t (2 ^ least t) ∧ ∀ x, Normal t x → 0 < x → 2 ^ least t ≤ x := by
  have hd := digits_pos t
  have e : (2 : Rat) ^ least t = ((2 ^ (digits t - 1) : Int) : Rat) * 2 ^ (least t - (digits t - 1)) := by
    push_cast
    rw [← zpow_natCast, ← zpow_add₀ (by norm_num)]
    congr 1
    omega
  constructor
  · refine ⟨2 ^ (digits t - 1), least t - (digits t - 1), ?_, ?_, le_refl _, e, ?_⟩
    · exact le_abs_self _
    · rw [abs_of_nonneg (by positivity)]
      exact pow_lt_pow_right₀ (by norm_num) (by omega)
    · rw [abs_of_nonneg (by positivity)]
      exact zpow_lt_zpow_right₀ (by norm_num) (by cases t <;> decide)
  · rintro x ⟨m, k, h1, _, h3, hx, _⟩ h0
    have hm : 0 < m := by
      rw [hx] at h0
      have := (pos_iff_pos_of_mul_pos h0).mpr (by positivity : (0 : Rat) < 2 ^ k)
      exact_mod_cast this
    rw [abs_of_pos hm] at h1
    rw [hx, e]
    refine mul_le_mul ?_ (zpow_le_zpow_right₀ (by norm_num) h3) (by positivity) ?_
    · exact_mod_cast h1
    · exact_mod_cast hm.le

/-- The smallest number. -/
theorem smallest_num (t : FloatTy) : Num t (2 ^ (least t - (digits t - 1))) ∧ ∀ x, Num t x → 0 < x → 2 ^ (least t - (digits t - 1)) ≤ x := by
  have hd := digits_pos t
  constructor
  · refine ⟨1, least t - (digits t - 1), ?_, le_refl _, by norm_num, ?_⟩
    · rw [abs_one]
      exact one_lt_pow₀ (by norm_num) (by omega)
    · rw [abs_of_nonneg (by positivity)]
      exact zpow_lt_zpow_right₀ (by norm_num) (by cases t <;> decide)
  · rintro x ⟨m, k, _, h3, hx, _⟩ h0
    have hm : 0 < m := by
      rw [hx] at h0
      have := (pos_iff_pos_of_mul_pos h0).mpr (by positivity : (0 : Rat) < 2 ^ k)
      exact_mod_cast this
    rw [hx]
    calc (2 : Rat) ^ (least t - (digits t - 1)) ≤ 2 ^ k := zpow_le_zpow_right₀ (by norm_num) h3
      _ = 1 * 2 ^ k := by ring
      _ ≤ m * 2 ^ k := by
        refine mul_le_mul_of_nonneg_right ?_ (by positivity)
        exact_mod_cast hm

/-- The next number after 1. -/
theorem after_one (t : FloatTy) : Num t (1 + 2 ^ (1 - (digits t : Int))) ∧ ∀ x, Num t x → 1 < x → 1 + 2 ^ (1 - (digits t : Int)) ≤ x := by
  have hd := digits_pos t
  have hp : (0 : Rat) < 2 ^ (1 - (digits t : Int)) := by positivity
  have e1 : ((2 ^ (digits t - 1) : Int) : Rat) * 2 ^ (1 - (digits t : Int)) = 1 := by
    push_cast
    rw [← zpow_natCast, ← zpow_add₀ (by norm_num)]
    rw [show ((digits t - 1 : Nat) : Int) + (1 - (digits t : Int)) = 0 by omega, zpow_zero]
  constructor
  · refine ⟨2 ^ (digits t - 1) + 1, 1 - digits t, ?_, by cases t <;> decide, ?_, ?_⟩
    · cases t <;> decide
    · rw [Int.cast_add, add_mul, e1]
      norm_num
    · have h1 : (2 : Rat) ^ (1 - (digits t : Int)) ≤ 2 ^ (0 : Int) := zpow_le_zpow_right₀ (by norm_num) (by omega)
      have h2 : (2 : Rat) ^ (2 : Int) ≤ 2 ^ bound t := zpow_le_zpow_right₀ (by norm_num) (by cases t <;> decide)
      rw [abs_of_nonneg (by positivity)]
      rw [zpow_zero] at h1
      norm_num at h2
      linarith
  · intro x hx h1
    obtain ⟨j, hj⟩ := FloatText.float_grid (k := 0) (isFloat_of_num hx) (by rw [zpow_zero]; exact h1.le.trans (le_abs_self x))
    rw [show (0 : Int) - ((digits t : Int) - 1) = 1 - digits t by ring] at hj
    have : (2 ^ (digits t - 1) : Int) < j := by
      have h2 : ((2 ^ (digits t - 1) : Int) : Rat) * 2 ^ (1 - (digits t : Int)) < j * 2 ^ (1 - (digits t : Int)) := by
        rw [e1, ← hj]
        exact h1
      have h3 := lt_of_mul_lt_mul_right h2 hp.le
      exact_mod_cast h3
    have h4 : ((2 ^ (digits t - 1) : Int) : Rat) + 1 ≤ j := by exact_mod_cast this
    calc (1 : Rat) + 2 ^ (1 - (digits t : Int)) = (((2 ^ (digits t - 1) : Int) : Rat) + 1) * 2 ^ (1 - (digits t : Int)) := by
          rw [add_mul, e1, one_mul]
      _ ≤ j * 2 ^ (1 - (digits t : Int)) := mul_le_mul_of_nonneg_right h4 hp.le
      _ = x := hj.symm

/-- When adding to 1 changes nothing. -/
theorem add_one (t : FloatTy) {e : Rat} (h0 : 0 ≤ e) (h1 : e ≤ 1) : rnd t.fmt (1 + e) = .fin 1 ↔ e ≤ 2 ^ (- (digits t : Int)) := by
  have hd := digits_pos t
  have hf : t.fmt.p = digits t := by cases t <;> rfl
  have hr : rnd t.fmt (1 + e) = .fin (Angle.round (digits t) (1 + e)) := by
    rw [← hf]
    refine rnd_fin (k := 1) (by rw [hf]; exact hd) (by cases t <;> decide) (.inr ?_) ?_
    · rw [abs_of_nonneg (by linarith)]
      have : (2 : Rat) ^ t.fmt.emin ≤ 2 ^ (0 : Int) := zpow_le_zpow_right₀ (by norm_num) (by cases t <;> decide)
      rw [zpow_zero] at this
      linarith
    · rw [abs_of_nonneg (by linarith), zpow_one]
      linarith
  rw [hr]
  have hfin : ∀ a b : Rat, F.fin a = F.fin b ↔ a = b := fun a b => ⟨fun h => F.fin.inj h, fun h => by rw [h]⟩
  rw [hfin]
  have hone : IsFloat (digits t) (1 : Rat) := ⟨1, 0, by rw [abs_one]; exact one_lt_pow₀ (by norm_num) (by omega), by norm_num⟩
  constructor
  · intro h
    have hb := FloatText.round_best hd (1 + e) (isFloat_of_num (after_one t).1)
    rw [h] at hb
    have e2 : (2 : Rat) ^ (1 - (digits t : Int)) = 2 * 2 ^ (- (digits t : Int)) := by
      rw [sub_eq_add_neg, zpow_add₀ (by norm_num), zpow_one]
    rw [e2, show (1 : Rat) - (1 + e) = -e by ring, abs_neg, abs_of_nonneg h0,
      show 1 + 2 * 2 ^ (- (digits t : Int)) - (1 + e) = 2 * 2 ^ (- (digits t : Int)) - e by ring] at hb
    have hp : (0 : Rat) < 2 ^ (- (digits t : Int)) := by positivity
    generalize (2 : Rat) ^ (- (digits t : Int)) = u at hb hp ⊢
    rcases abs_cases (2 * u - e) with ⟨h, _⟩ | ⟨h, _⟩ <;> rw [h] at hb <;> linarith
  · intro h
    have hlo := Angle.round_mono (p := digits t) hd (show (1 : Rat) ≤ 1 + e by linarith)
    have hhi := Angle.round_mono (p := digits t) hd (show 1 + e ≤ 1 + 2 ^ (- (digits t : Int)) by linarith)
    rw [Angle.round_float hone] at hlo
    have ht : Angle.round (digits t) (1 + 2 ^ (- (digits t : Int))) = 1 := by cases t <;> decide +kernel
    rw [ht] at hhi
    exact le_antisymm hhi hlo

end Rpp.Limits
