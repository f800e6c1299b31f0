import Verif.Proof.Math

/-! `pow` for `u16`, whose products are computed in `int`. -/

namespace Rpp.Math
theorem mulAssign_u16 (a b : Nat) : mulAssign u16 a b =
    if a * b < 2 ^ 31 then .ok (((a * b) % 2 ^ 16 : Nat) : Int) else .error .ub := by
  have hp : ((a : Int) * b) = ((a * b : Nat) : Int) := by push_cast; ring
  unfold mulAssign arith
  rw [hp]
  generalize a * b = p
  have hu : u16.usual = i32 := rfl
  rw [hu]
  have hs : i32.signed = true := rfl
  rw [if_pos hs]
  by_cases h : p < 2 ^ 31
  · have : i32.has (p : Int) := by simp [IntTy.has, IntTy.lo, IntTy.hi, i32]; omega
    rw [if_pos this, if_pos h]
    simp [conv, u16, bind, Except.bind, pure, Except.pure]
  · have : ¬ i32.has (p : Int) := by simp [IntTy.has, IntTy.lo, IntTy.hi, i32]; omega
    rw [if_neg this, if_neg h]
    rfl

theorem powLoop_u16 : ∀ (n f r b e : Nat), 2 ^ n ≤ e → e < 2 ^ (n + 1) → r < 2 ^ 16 →
    b ^ e < 2 ^ 16 → r * b ^ e < 2 ^ 16 →
    powLoop u16 (n + 2 + f) r b e =
      if b ^ (2 ^ (n + 1)) < 2 ^ 31 then .ok ((r * b ^ e : Nat) : Int) else .error .ub := by
  intro n
  induction n with
  | zero =>
    intro f r b e h0 h1 hr hb hrb
    have he : e = 1 := by omega
    subst he
    rw [pow_one] at *
    have e1 : 0 + 2 + f = (f + 1) + 1 := by omega
    rw [e1]
    unfold powLoop
    simp only [Nat.cast_one, one_ne_zero, if_false, Int.reduceMod, if_true, bind, Except.bind]
    rw [mulAssign_u16, if_pos (by omega), mulAssign_u16, Nat.mod_eq_of_lt hrb]
    dsimp only
    by_cases h : b * b < 2 ^ 31
    · rw [if_pos h, if_pos (by rw [pow_two]; exact h)]
      simp [powLoop]
    · rw [if_neg h, if_neg (by rw [pow_two]; exact h)]
  | succ n ih =>
    intro f r b e h0 h1 hr hb hrb
    obtain ⟨m, c, rfl, hc⟩ : ∃ m c, e = 2 * m + c ∧ c < 2 := ⟨e / 2, e % 2, by omega, by omega⟩
    have hp1 : 2 ^ (n + 1) = 2 * 2 ^ n := by rw [pow_succ]; ring
    have hp2 : 2 ^ (n + 1 + 1) = 2 * 2 ^ (n + 1) := by rw [pow_succ]; ring
    have hm0 : 2 ^ n ≤ m := by omega
    have hm1 : m < 2 ^ (n + 1) := by omega
    have hmpos : 1 ≤ m := le_trans Nat.one_le_two_pow hm0
    have hbb : b * b < 2 ^ 16 := by
      rcases Nat.eq_zero_or_pos b with rfl | hb0
      · norm_num
      · refine lt_of_le_of_lt ?_ hb
        rw [← pow_two]; exact Nat.pow_le_pow_right hb0 (by omega)
    have hsq : (b * b) ^ m = b ^ (2 * m) := by rw [← pow_two, ← pow_mul]
    have hbm : (b * b) ^ m < 2 ^ 16 := by
      rw [hsq]
      rcases Nat.eq_zero_or_pos b with rfl | hb0
      · rw [zero_pow (by omega)]; norm_num
      · exact lt_of_le_of_lt (Nat.pow_le_pow_right hb0 (by omega)) hb
    have e1 : n + 1 + 2 + f = (n + 2 + f) + 1 := by omega
    have hne : ((2 * m + c : Nat) : Int) ≠ 0 := by omega
    have hdiv : ((2 * m + c : Nat) : Int) / 2 = (m : Int) := by omega
    rw [e1]
    unfold powLoop
    rw [if_neg hne]
    have hexp : b ^ 2 ^ (n + 1 + 1) = (b * b) ^ 2 ^ (n + 1) := by
      rw [← pow_two, ← pow_mul, hp2]
    rw [hexp]
    by_cases hc1 : c = 1
    · subst hc1
      have hr' : r * b < 2 ^ 16 := by
        rcases Nat.eq_zero_or_pos b with rfl | hb0
        · norm_num
        · refine lt_of_le_of_lt (Nat.mul_le_mul_left r ?_) hrb
          calc b = b ^ 1 := (pow_one b).symm
            _ ≤ _ := Nat.pow_le_pow_right hb0 (by omega)
      have hval : r * b * (b * b) ^ m = r * b ^ (2 * m + 1) := by rw [hsq, pow_succ]; ring
      rw [if_pos (by omega), mulAssign_u16, if_pos (by omega), Nat.mod_eq_of_lt hr']
      simp only [bind, Except.bind]
      rw [mulAssign_u16, if_pos (by omega), Nat.mod_eq_of_lt hbb]
      dsimp only
      rw [hdiv, ih f (r * b) (b * b) m hm0 hm1 hr' hbm (by rw [hval]; exact hrb), hval]
    · have hc0 : c = 0 := by omega
      subst hc0
      have hval : r * (b * b) ^ m = r * b ^ (2 * m + 0) := by rw [hsq, Nat.add_zero]
      rw [if_neg (by omega)]
      simp only [bind, Except.bind]
      rw [mulAssign_u16, if_pos (by omega), Nat.mod_eq_of_lt hbb]
      dsimp only
      rw [hdiv, ih f r (b * b) m hm0 hm1 hr hbm (by rw [hval]; exact hrb), hval]

/-- Whatever the loop returns is right modulo `2^16`. -/
theorem powLoop_u16_mod : ∀ (f r b e : Nat) (x : Int), r < 2 ^ 16 → powLoop u16 f r b e = .ok x →
    x = ((r * b ^ e % 2 ^ 16 : Nat) : Int) := by
  intro f
  induction f with
  | zero => intro r b e x _ h; simp [powLoop] at h
  | succ f ih =>
    intro r b e x hr h
    unfold powLoop at h
    rcases Nat.eq_zero_or_pos e with rfl | he
    · simp at h; subst h; simp; omega
    · obtain ⟨m, c, rfl, hc⟩ : ∃ m c, e = 2 * m + c ∧ c < 2 := ⟨e / 2, e % 2, by omega, by omega⟩
      have hne : ((2 * m + c : Nat) : Int) ≠ 0 := by omega
      have hdiv : ((2 * m + c : Nat) : Int) / 2 = (m : Int) := by omega
      rw [if_neg hne, hdiv] at h
      have hsq : ∀ y : Nat, y * (b * b % 2 ^ 16) ^ m % 2 ^ 16 = y * b ^ (2 * m) % 2 ^ 16 := by
        intro y
        have : (b * b) ^ m = b ^ (2 * m) := by rw [← pow_two, ← pow_mul]
        rw [Nat.mul_mod, ← Nat.pow_mod, ← Nat.mul_mod, this]
      by_cases hc1 : c = 1
      · subst hc1
        rw [if_pos (by omega), mulAssign_u16] at h
        by_cases h1 : r * b < 2 ^ 31
        · rw [if_pos h1] at h
          simp only [bind, Except.bind] at h
          rw [mulAssign_u16] at h
          by_cases h2 : b * b < 2 ^ 31
          · rw [if_pos h2] at h
            dsimp only at h
            rw [ih _ _ _ _ (Nat.mod_lt _ (by norm_num)) h, hsq, Nat.mod_mul_mod]
            congr 2; rw [pow_succ]; ring
          · rw [if_neg h2] at h; simp at h
        · rw [if_neg h1] at h; simp [bind, Except.bind] at h
      · have hc0 : c = 0 := by omega
        subst hc0
        rw [if_neg (by omega)] at h
        simp only [bind, Except.bind] at h
        rw [mulAssign_u16] at h
        by_cases h2 : b * b < 2 ^ 31
        · rw [if_pos h2] at h
          dsimp only at h
          rw [ih _ _ _ _ hr h, hsq, Nat.add_zero]
        · rw [if_neg h2] at h; simp at h
end Rpp.Math
