import Verif.Model.Math
import Verif.Spec.Arith
import Mathlib.Tactic.Ring
import Mathlib.Tactic.Linarith
import Mathlib.Algebra.Order.Ring.Int
import Mathlib.Data.Int.ModEq
import Mathlib.Algebra.Order.Ring.Abs

/-! Lemmas on the integer functions. -/

namespace Rpp.Math
open Rpp Rpp.Spec

theorem clzFrom_spec : ∀ (k x : Nat), 0 < x → x < 2 ^ k →
    ∃ j, j < k ∧ clzFrom k x = k - 1 - j ∧ 2 ^ j ≤ x ∧ x < 2 ^ (j + 1) := by
  intro k
  induction k with
  | zero => intro x h0 h1; simp at h1; omega
  | succ k ih =>
    intro x h0 h1
    unfold clzFrom
    by_cases ht : x.testBit k = true
    · rw [if_pos ht]
      exact ⟨k, by omega, by omega, Nat.ge_two_pow_of_testBit ht, h1⟩
    · rw [if_neg ht]
      have hx : x < 2 ^ k := by
        have ht' : ¬ x / 2 ^ k % 2 = 1 := by
          rw [Nat.testBit_eq_decide_div_mod_eq] at ht
          simpa only [decide_eq_true_eq] using ht
        have h2 : x / 2 ^ k < 2 := by
          rw [Nat.div_lt_iff_lt_mul (by positivity)]; rw [Nat.pow_succ] at h1; omega
        have h3 : x / 2 ^ k = 0 := by
          generalize x / 2 ^ k = q at ht' h2
          omega
        have := Nat.div_eq_zero_iff.mp h3
        rcases this with h | h
        · have : 0 < 2 ^ k := by positivity
          omega
        · exact h
      obtain ⟨j, hj, e, l, u⟩ := ih x h0 hx
      exact ⟨j, by omega, by omega, l, u⟩

theorem subw_eq {w a b : Nat} (hab : b ≤ a) (ha : a < 2 ^ w) : subw w a b = a - b := by
  unfold subw
  have : a + (2 ^ w - b) = (a - b) + 2 ^ w := by omega
  rw [this, Nat.add_mod_right, Nat.mod_eq_of_lt (by omega)]

theorem width_lt (w : Nat) : w < 2 ^ w := Nat.lt_two_pow_self

theorem log2_spec {w x : Nat} (h0 : 0 < x) (hx : x < 2 ^ w) :
    log2 w x < w ∧ 2 ^ log2 w x ≤ x ∧ x < 2 ^ (log2 w x + 1) ∧ ctlz w x = w - 1 - log2 w x := by
  obtain ⟨j, hj, e, l, u⟩ := clzFrom_spec w x h0 hx
  have hc : ctlz w x = w - 1 - j := by unfold ctlz; rw [if_neg (by omega), e]
  have hl : log2 w x = j := by
    unfold log2
    rw [hc, subw_eq (by omega) (by have := width_lt w; omega)]
    omega
  rw [hl]
  exact ⟨hj, l, u, hc⟩

theorem prev_pow2_eq {w x : Nat} (h0 : 0 < x) (hx : x < 2 ^ w) :
    prev_pow2 w x = .ok (2 ^ log2 w x) := by
  obtain ⟨a, b, c, _⟩ := log2_spec h0 hx
  unfold prev_pow2 shl
  rw [if_neg (by omega), if_pos a, one_mul, Nat.mod_eq_of_lt (by omega)]

theorem pow2_between {j k x : Nat} (hl : 2 ^ j < x) (hx : x ≤ 2 ^ k) : j + 1 ≤ k := by
  have : 2 ^ j < 2 ^ k := by omega
  exact (Nat.pow_lt_pow_iff_right (by omega)).mp this

theorem testBit_notw {w k i : Nat} (hk : k ≤ w) :
    (notw w (2 ^ k - 1)).testBit i = (decide (i < w) && decide (k ≤ i)) := by
  have hkw : 2 ^ k ≤ 2 ^ w := Nat.pow_le_pow_right (by omega) hk
  have hk0 : 0 < 2 ^ k := by positivity
  have e : notw w (2 ^ k - 1) = 2 ^ w - ((2 ^ k - 1) + 1) := by unfold notw; omega
  rw [e, Nat.testBit_two_pow_sub_succ (by omega), Nat.testBit_two_pow_sub_one]
  congr 1
  by_cases h : k ≤ i
  · have h' : ¬ i < k := by omega
    simp [h, h']
  · have h' : i < k := by omega
    simp [h, h']

theorem and_notw {w k y : Nat} (hk : k ≤ w) (hy : y < 2 ^ w) :
    y &&& notw w (2 ^ k - 1) = 2 ^ k * (y / 2 ^ k) := by
  apply Nat.eq_of_testBit_eq
  intro i
  rw [Nat.testBit_and, testBit_notw hk, Nat.testBit_two_pow_mul, Nat.testBit_div_two_pow]
  by_cases h : k ≤ i
  · have e : i - k + k = i := by omega
    by_cases hi : i < w
    · simp [h, hi, e]
    · have : y.testBit i = false :=
        Nat.testBit_lt_two_pow (lt_of_lt_of_le hy (Nat.pow_le_pow_right (by omega) (by omega)))
      simp [h, this]
  · simp [h]

/-- Rounding in terms of the remainder. -/
theorem roundDown_mod {x a : Nat} (_ : 0 < a) : IsRoundDown x a (a * (x / a)) := by
  refine ⟨Nat.dvd_mul_right _ _, Nat.mul_div_le x a, ?_⟩
  rintro m' ⟨c, rfl⟩ hm
  have : c ≤ x / a := (Nat.le_div_iff_mul_le (by assumption)).mpr (by rw [Nat.mul_comm]; exact hm)
  exact Nat.mul_le_mul_left a this

theorem roundUp_of_mod {x a : Nat} (ha : 0 < a) :
    IsRoundUp x a (if x % a = 0 then x else x + (a - x % a)) := by
  have hd := Nat.div_add_mod x a
  have hm := Nat.mod_lt x ha
  by_cases h : x % a = 0
  · rw [if_pos h]
    exact ⟨Nat.dvd_of_mod_eq_zero h, le_refl _, fun m' _ h' => h'⟩
  · rw [if_neg h]
    have e : x + (a - x % a) = a * (x / a + 1) := by rw [Nat.mul_add, Nat.mul_one]; omega
    rw [e]
    refine ⟨Nat.dvd_mul_right _ _, by rw [Nat.mul_add, Nat.mul_one]; omega, ?_⟩
    rintro m' ⟨c, rfl⟩ hx
    refine Nat.mul_le_mul_left a ?_
    by_contra hc
    have hc' : c ≤ x / a := by omega
    have := Nat.mul_le_mul_left a hc'
    omega

theorem IsRoundUp.unique {x a m m' : Nat} (h : IsRoundUp x a m) (h' : IsRoundUp x a m') : m = m' :=
  Nat.le_antisymm (h.2.2 _ h'.1 h'.2.1) (h'.2.2 _ h.1 h.2.1)

theorem align_eq {w x a m : Nat} (ha : 0 < a) (haw : a < 2 ^ w) (hm : IsRoundUp x a m)
    (hmw : m < 2 ^ w) : align w x a = .ok m := by
  have := IsRoundUp.unique hm (roundUp_of_mod ha)
  unfold align
  rw [if_neg (by omega)]
  simp only
  congr 1
  by_cases h : x % a = 0
  · rw [if_pos h] at this ⊢; exact this.symm
  · rw [if_neg h] at this ⊢
    rw [subw_eq (Nat.le_of_lt (Nat.mod_lt x ha)) haw, ← this, Nat.mod_eq_of_lt hmw]

theorem align_pow2_eq {w x k m : Nat} (hk : k < w) (hm : IsRoundUp x (2 ^ k) m)
    (hmw : m < 2 ^ w) : align_pow2 w x (2 ^ k) = m := by
  have ha : 0 < 2 ^ k := by positivity
  have hkw : 2 ^ k < 2 ^ w := Nat.pow_lt_pow_right (by omega) hk
  -- the rounded value leaves room for one more block
  have hroom : m + 2 ^ k ≤ 2 ^ w := by
    obtain ⟨c, rfl⟩ := hm.1
    obtain ⟨d, hd⟩ : 2 ^ k ∣ 2 ^ w := Nat.pow_dvd_pow 2 (by omega)
    rw [hd] at hmw ⊢
    have : c < d := Nat.lt_of_mul_lt_mul_left hmw
    calc 2 ^ k * c + 2 ^ k = 2 ^ k * (c + 1) := by ring
      _ ≤ 2 ^ k * d := Nat.mul_le_mul_left _ this
  have hxm := hm.2.1
  have e1 : subw w ((x + 2 ^ k) % 2 ^ w) 1 = x + 2 ^ k - 1 := by
    unfold subw
    rw [Nat.mod_add_mod]
    have : x + 2 ^ k + (2 ^ w - 1) = (x + 2 ^ k - 1) + 2 ^ w := by omega
    rw [this, Nat.add_mod_right, Nat.mod_eq_of_lt (by omega)]
  have e2 : subw w (2 ^ k) 1 = 2 ^ k - 1 := subw_eq ha hkw
  unfold align_pow2
  rw [e1, e2, and_notw (by omega) (by omega)]
  have u := IsRoundUp.unique hm (roundUp_of_mod ha)
  rw [u]
  have hd := Nat.div_add_mod x (2 ^ k)
  have hmod := Nat.mod_lt x ha
  by_cases h : x % 2 ^ k = 0
  · rw [if_pos h]
    have e : (x + 2 ^ k - 1) / 2 ^ k = x / 2 ^ k := by
      have : x + 2 ^ k - 1 = (2 ^ k - 1) + 2 ^ k * (x / 2 ^ k) := by omega
      rw [this, Nat.add_mul_div_left _ _ ha, Nat.div_eq_of_lt (by omega)]; omega
    rw [e]; omega
  · rw [if_neg h]
    have e : (x + 2 ^ k - 1) / 2 ^ k = x / 2 ^ k + 1 := by
      have : x + 2 ^ k - 1 = (x % 2 ^ k - 1) + 2 ^ k * (x / 2 ^ k + 1) := by
        rw [Nat.mul_add, Nat.mul_one]; omega
      rw [this, Nat.add_mul_div_left _ _ ha, Nat.div_eq_of_lt (by omega)]; omega
    rw [e, Nat.mul_add, Nat.mul_one]; omega

theorem align_down_eq {w x a : Nat} (ha : 0 < a) (hx : x < 2 ^ w) :
    align_down w x a = .ok (a * (x / a)) := by
  unfold align_down
  rw [if_neg (by omega)]
  simp only
  congr 1
  have hd := Nat.div_add_mod x a
  by_cases h : x % a = 0
  · rw [if_pos h]; omega
  · rw [if_neg h, subw_eq (Nat.mod_le x a) hx]; omega

theorem align_down_pow2_eq {w x k : Nat} (hk : k < w) (hx : x < 2 ^ w) :
    align_down_pow2 w x (2 ^ k) = 2 ^ k * (x / 2 ^ k) := by
  unfold align_down_pow2
  rw [subw_eq (Nat.pos_of_ne_zero (by positivity)) (Nat.pow_lt_pow_right (by omega) hk)]
  exact and_notw (by omega) hx

/-! ### Power -/

theorem conv_congr {t : IntTy} {x y : Int} (h : x % 2 ^ t.w = y % 2 ^ t.w) : conv t x = conv t y := by
  unfold conv; rw [h]

theorem conv_mod (t : IntTy) (x : Int) : conv t x % 2 ^ t.w = x % 2 ^ t.w := by
  unfold conv
  simp only
  split
  · rw [Int.sub_emod_right, Int.emod_emod]
  · rw [Int.emod_emod]

theorem conv_conv (t : IntTy) (x : Int) : conv t (conv t x) = conv t x := conv_congr (conv_mod t x)

theorem two_pow_half {w : Nat} (hw : 0 < w) : (2 : Int) ^ w = 2 * 2 ^ (w - 1) := by
  obtain ⟨v, rfl⟩ : ∃ v, w = v + 1 := ⟨w - 1, by omega⟩
  rw [Nat.add_sub_cancel, pow_succ]; ring

theorem conv_has {t : IntTy} (hw : 0 < t.w) (x : Int) : t.has (conv t x) := by
  have h0 : 0 ≤ x % 2 ^ t.w := Int.emod_nonneg _ (by positivity)
  have h1 : x % 2 ^ t.w < 2 ^ t.w := Int.emod_lt_of_pos _ (by positivity)
  have h2 := two_pow_half hw
  have h3 : (0 : Int) < 2 ^ (t.w - 1) := by positivity
  unfold IntTy.has IntTy.lo IntTy.hi conv
  simp only
  cases hs : t.signed
  · simp only [Bool.false_eq_true, false_and, if_false]; omega
  · simp only [true_and, if_true]
    split <;> omega

theorem conv_id {t : IntTy} (hw : 0 < t.w) {x : Int} (hx : t.has x) : conv t x = x := by
  have h2 := two_pow_half hw
  have h3 : (0 : Int) < 2 ^ (t.w - 1) := by positivity
  unfold IntTy.has IntTy.lo IntTy.hi at hx
  unfold conv
  simp only
  cases hs : t.signed
  · simp only [hs, Bool.false_eq_true, false_and, if_false] at hx ⊢
    exact Int.emod_eq_of_lt hx.1 (by omega)
  · simp only [hs, true_and, if_true] at hx ⊢
    by_cases hn : 0 ≤ x
    · rw [Int.emod_eq_of_lt hn (by omega), if_neg (by omega)]
    · have e : x % 2 ^ t.w = x + 2 ^ t.w := by
        rw [← Int.add_emod_right, Int.emod_eq_of_lt (by omega) (by omega)]
      rw [e, if_pos (by omega)]; omega

/-- Types whose multiplication never overflows its computation type. -/
def Wrapping (t : IntTy) : Prop :=
  0 < t.w ∧ ∀ a b, t.has a → t.has b → mulAssign t a b = .ok (conv t (a * b))

theorem wrapping_unsigned {t : IntTy} (hs : t.signed = false) (hw : 32 ≤ t.w) : Wrapping t := by
  refine ⟨by omega, ?_⟩
  intro a b _ _
  have hu : t.usual = t := by unfold IntTy.usual; rw [if_neg (by omega)]
  unfold mulAssign arith
  rw [hu, hs]
  simp only [Bool.false_eq_true, if_false, bind, Except.bind, pure, Except.pure]
  congr 1
  exact conv_congr (Int.emod_emod _ _)

theorem wrapping_small {t : IntTy} (hw : 0 < t.w) (hw' : t.w < 32)
    (h : ∀ a b, t.has a → t.has b → i32.has (a * b)) : Wrapping t := by
  refine ⟨hw, ?_⟩
  intro a b ha hb
  have hu : t.usual = i32 := by unfold IntTy.usual; rw [if_pos hw']
  unfold mulAssign arith
  rw [hu, if_pos (show i32.signed = true from rfl), if_pos (h a b ha hb)]
  rfl

theorem mul_bound {a b k : Int} (ha : -k ≤ a) (ha' : a ≤ k) (hb : -k ≤ b) (hb' : b ≤ k) :
    -(k * k) ≤ a * b ∧ a * b ≤ k * k := by
  constructor <;> nlinarith

theorem wrapping_u8 : Wrapping u8 := wrapping_small (by decide) (by decide) (by
  intro a b ha hb
  have := mul_bound (k := 255) (a := a) (b := b)
  simp [IntTy.has, IntTy.lo, IntTy.hi, u8, i32] at ha hb ⊢
  have := this (by omega) (by omega) (by omega) (by omega)
  omega)

theorem wrapping_i8 : Wrapping i8 := wrapping_small (by decide) (by decide) (by
  intro a b ha hb
  have := mul_bound (k := 128) (a := a) (b := b)
  simp [IntTy.has, IntTy.lo, IntTy.hi, i8, i32] at ha hb ⊢
  have := this (by omega) (by omega) (by omega) (by omega)
  omega)

theorem wrapping_i16 : Wrapping i16 := wrapping_small (by decide) (by decide) (by
  intro a b ha hb
  have := mul_bound (k := 32768) (a := a) (b := b)
  simp [IntTy.has, IntTy.lo, IntTy.hi, i16, i32] at ha hb ⊢
  have := this (by omega) (by omega) (by omega) (by omega)
  omega)

theorem cast_div_two (e : Nat) : ((e : Int) / 2) = ((e / 2 : Nat) : Int) := by omega

theorem pow_split (b : Int) (e : Nat) : b ^ e = (if e % 2 = 1 then b else 1) * (b * b) ^ (e / 2) := by
  have h := Nat.div_add_mod e 2
  by_cases h1 : e % 2 = 1
  · rw [if_pos h1, ← pow_two, ← pow_mul, ← pow_succ']
    congr 1; omega
  · rw [if_neg h1, one_mul, ← pow_two, ← pow_mul]
    congr 1; omega

theorem powLoop_wrapping {t : IntTy} (ht : Wrapping t) : ∀ (n : Nat) (r b : Int) (e : Nat),
    e < 2 ^ n → t.has r → t.has b → powLoop t (n + 1) r b e = .ok (conv t (r * b ^ e)) := by
  intro n
  induction n with
  | zero =>
    intro r b e he hr hb
    have : e = 0 := by simpa using he
    subst this
    simp [powLoop, conv_id ht.1 hr]
  | succ n ih =>
    intro r b e he hr hb
    unfold powLoop
    by_cases h0 : e = 0
    · subst h0; simp [conv_id ht.1 hr]
    · rw [if_neg (by omega)]
      have he2 : e / 2 < 2 ^ n := by rw [pow_succ] at he; omega
      have hb' := conv_has ht.1 (b * b)
      by_cases h1 : e % 2 = 1
      · rw [if_pos (by omega)]
        simp only [bind, Except.bind, ht.2 r b hr hb, ht.2 b b hb hb, cast_div_two]
        rw [ih _ _ _ he2 (conv_has ht.1 _) hb']
        congr 1
        apply conv_congr
        have e1 : r * b ^ e = r * b * (b * b) ^ (e / 2) := by
          rw [pow_split b e, if_pos h1, mul_assoc]
        rw [e1]
        exact Int.ModEq.mul (conv_mod t _) (Int.ModEq.pow _ (conv_mod t _))
      · rw [if_neg (by omega)]
        simp only [bind, Except.bind, ht.2 b b hb hb, cast_div_two]
        rw [ih _ _ _ he2 hr hb']
        congr 1
        apply conv_congr
        have e1 : r * b ^ e = r * (b * b) ^ (e / 2) := by
          rw [pow_split b e, if_neg h1, one_mul]
        rw [e1]
        exact Int.ModEq.mul_left _ (Int.ModEq.pow _ (conv_mod t _))

theorem pow_wrapping {t : IntTy} (ht : Wrapping t) (h1 : t.has 1) {base : Int} (hb : t.has base)
    {e : Nat} (he : e < 2 ^ t.w) : pow t (t.w + 1) base e = .ok (conv t (base ^ e)) := by
  unfold pow
  rw [powLoop_wrapping ht _ _ _ _ he h1 hb, one_mul]

/-! Signed types of at least the width of `int`. -/

theorem mulAssign_signed {t : IntTy} (hs : t.signed = true) (hw : 32 ≤ t.w) (a b : Int) :
    mulAssign t a b = if t.has (a * b) then .ok (a * b) else .error .ub := by
  have hu : t.usual = t := by unfold IntTy.usual; rw [if_neg (by omega)]
  unfold mulAssign arith
  rw [hu, hs]
  simp only [if_true]
  by_cases h : t.has (a * b)
  · rw [if_pos h]
    simp only [bind, Except.bind, pure, Except.pure]
    rw [conv_id (by omega) h]
  · rw [if_neg h]; rfl

theorem has_of_abs {t : IntTy} (hs : t.signed = true) {x : Int} (h : |x| ≤ t.hi) : t.has x := by
  have := abs_le.mp h
  unfold IntTy.has IntTy.lo IntTy.hi at *
  simp only [hs, if_true] at *
  omega

theorem has_nonneg {t : IntTy} (hs : t.signed = true) {x : Int} (h0 : 0 ≤ x) :
    t.has x ↔ x ≤ t.hi := by
  have : (0 : Int) < 2 ^ (t.w - 1) := by positivity
  unfold IntTy.has IntTy.lo
  simp only [hs, if_true]
  omega

theorem powLoop_signed_ok {t : IntTy} (hs : t.signed = true) (hw : 32 ≤ t.w) :
    ∀ (n f : Nat) (r b B : Int) (e : Nat), e < 2 ^ n → n < f → |b| ≤ B → 1 ≤ B →
    |r| * B ^ (2 ^ n - 1) ≤ t.hi → (0 < n → B ^ (2 ^ n) ≤ t.hi) →
    powLoop t f r b e = .ok (r * b ^ e) := by
  intro n
  induction n with
  | zero =>
    intro f r b B e he hf _ _ _ _
    have : e = 0 := by simpa using he
    subst this
    obtain ⟨f, rfl⟩ : ∃ g, f = g + 1 := ⟨f - 1, by omega⟩
    simp [powLoop]
  | succ n ih =>
    intro f r b B e he hf hb hB hr hn
    obtain ⟨f, rfl⟩ : ∃ g, f = g + 1 := ⟨f - 1, by omega⟩
    unfold powLoop
    by_cases h0 : e = 0
    · subst h0; simp
    · rw [if_neg (by omega)]
      have hn := hn (by omega)
      have he2 : e / 2 < 2 ^ n := by rw [pow_succ] at he; omega
      have hp : (2 : Nat) ^ (n + 1) = 2 * 2 ^ n := by rw [pow_succ]; ring
      have h2n : 1 ≤ 2 ^ n := Nat.one_le_two_pow
      have hr0 := abs_nonneg r
      have hBB : |b * b| ≤ B * B := by rw [abs_mul]; exact mul_le_mul hb hb (abs_nonneg b) (by omega)
      have hBB1 : 1 ≤ B * B := by nlinarith
      have e2 : (B * B) ^ (2 ^ n) = B ^ (2 ^ (n + 1)) := by rw [← pow_two, ← pow_mul, hp]
      have e3 : B * (B * B) ^ (2 ^ n - 1) = B ^ (2 ^ (n + 1) - 1) := by
        rw [← pow_two, ← pow_mul, ← pow_succ']; congr 1; omega
      have hmono : (B * B) ^ (2 ^ n - 1) ≤ B * (B * B) ^ (2 ^ n - 1) := by
        have : 0 ≤ (B * B) ^ (2 ^ n - 1) := by positivity
        nlinarith
      -- squaring stays in range
      have hsq : t.has (b * b) := by
        refine has_of_abs hs (le_trans hBB (le_trans ?_ hn))
        rw [← e2]
        exact le_self_pow₀ hBB1 (by omega)
      have hbm : mulAssign t b b = .ok (b * b) := by
        rw [mulAssign_signed hs hw, if_pos hsq]
      have hn' : 0 < n → (B * B) ^ (2 ^ n) ≤ t.hi := fun _ => by rw [e2]; exact hn
      by_cases h1 : e % 2 = 1
      · have hrb : |r * b| ≤ |r| * B := by rw [abs_mul]; exact mul_le_mul_of_nonneg_left hb hr0
        have hr' : |r * b| * (B * B) ^ (2 ^ n - 1) ≤ t.hi := by
          refine le_trans ?_ hr
          rw [← e3, ← mul_assoc]
          exact mul_le_mul_of_nonneg_right hrb (by positivity)
        have hh : t.has (r * b) := by
          refine has_of_abs hs (le_trans ?_ hr')
          have : 1 ≤ (B * B) ^ (2 ^ n - 1) := one_le_pow₀ hBB1
          have := abs_nonneg (r * b)
          nlinarith
        rw [if_pos (by omega), mulAssign_signed hs hw, if_pos hh]
        simp only [bind, Except.bind, hbm, cast_div_two]
        rw [ih f _ _ (B * B) _ he2 (by omega) hBB hBB1 hr' hn']
        rw [pow_split b e, if_pos h1, mul_assoc]
      · have hr' : |r| * (B * B) ^ (2 ^ n - 1) ≤ t.hi := by
          refine le_trans ?_ hr
          rw [← e3]
          exact mul_le_mul_of_nonneg_left hmono hr0
        rw [if_neg (by omega)]
        simp only [bind, Except.bind, hbm, cast_div_two]
        rw [ih f _ _ (B * B) _ he2 (by omega) hBB hBB1 hr' hn']
        rw [pow_split b e, if_neg h1, one_mul]

theorem powLoop_signed_ub {t : IntTy} (hs : t.signed = true) (hw : 32 ≤ t.w) :
    ∀ (n f : Nat) (r b : Int) (e : Nat), 2 ^ n ≤ e → e < 2 ^ (n + 1) → n < f →
    ¬ t.has (b ^ (2 ^ (n + 1))) → powLoop t f r b e = .error .ub := by
  intro n
  induction n with
  | zero =>
    intro f r b e h0 h1 hf hb
    have : e = 1 := by simp at h0 h1; omega
    subst this
    obtain ⟨f, rfl⟩ : ∃ g, f = g + 1 := ⟨f - 1, by omega⟩
    have hb' : ¬ t.has (b * b) := by
      have e : b ^ (2 ^ (0 + 1)) = b * b := by ring
      rw [e] at hb; exact hb
    have hbm : mulAssign t b b = .error .ub := by rw [mulAssign_signed hs hw, if_neg hb']
    unfold powLoop
    rw [if_neg (by omega), if_pos (by omega)]
    cases hm : mulAssign t r b with
    | error er =>
      rw [mulAssign_signed hs hw] at hm
      split at hm
      · cases hm
      · cases hm; rfl
    | ok x => simp only [bind, Except.bind, hbm]
  | succ n ih =>
    intro f r b e h0 h1 hf hb
    obtain ⟨f, rfl⟩ : ∃ g, f = g + 1 := ⟨f - 1, by omega⟩
    have hpos : 1 ≤ 2 ^ n := Nat.one_le_two_pow
    have p1 : (2 : Nat) ^ (n + 1) = 2 * 2 ^ n := by rw [pow_succ]; ring
    have p2 : (2 : Nat) ^ (n + 1 + 1) = 4 * 2 ^ n := by rw [pow_succ, pow_succ]; ring
    unfold powLoop
    rw [if_neg (by omega)]
    have tail : ∀ x, (do
        let base ← mulAssign t b b
        powLoop t f x base ((e : Int) / 2)) = .error .ub := by
      intro x
      rw [mulAssign_signed hs hw]
      by_cases hbb : t.has (b * b)
      · rw [if_pos hbb]
        simp only [bind, Except.bind, cast_div_two]
        refine ih f x (b * b) (e / 2) (by omega) (by omega) (by omega) ?_
        have : (b * b) ^ (2 ^ (n + 1)) = b ^ (2 ^ (n + 1 + 1)) := by
          rw [← pow_two, ← pow_mul]; congr 1; omega
        rw [this]; exact hb
      · rw [if_neg hbb]; rfl
    by_cases ho : e % 2 = 1
    · rw [if_pos (by omega), mulAssign_signed hs hw]
      by_cases hrb : t.has (r * b)
      · rw [if_pos hrb]; exact tail _
      · rw [if_neg hrb]; rfl
    · rw [if_neg (by omega)]; exact tail _

/-- For signed types: `n` is the number of binary digits of the exponent. -/
theorem pow_signed {t : IntTy} (hs : t.signed = true) (hw : 32 ≤ t.w) {base : Int} {e n : Nat}
    (h0 : 2 ^ n ≤ e) (h1 : e < 2 ^ (n + 1)) (hn : n < t.w) :
    pow t (t.w + 1) base e =
      if t.has (base ^ (2 ^ (n + 1))) then .ok (base ^ e) else .error .ub := by
  unfold pow
  by_cases h : t.has (base ^ (2 ^ (n + 1)))
  · rw [if_pos h]
    have h2n : 2 ≤ 2 ^ (n + 1) := by
      have : 1 ≤ 2 ^ n := Nat.one_le_two_pow
      rw [pow_succ]; omega
    have hev : base ^ (2 ^ (n + 1)) = |base| ^ (2 ^ (n + 1)) := by
      rw [pow_succ 2 n, Nat.mul_comm, pow_mul, pow_mul, sq_abs]
    have hle : |base| ^ (2 ^ (n + 1)) ≤ t.hi := by rw [← hev]; exact h.2
    have hhi : 1 ≤ t.hi := by
      unfold IntTy.hi; rw [if_pos hs]
      have : (2 : Int) ^ 1 ≤ 2 ^ (t.w - 1) := pow_le_pow_right₀ (by omega) (by omega)
      omega
    have hB : max 1 |base| ^ (2 ^ (n + 1)) ≤ t.hi := by
      rcases le_total |base| 1 with hb | hb
      · rw [max_eq_left hb, one_pow]; exact hhi
      · rw [max_eq_right hb]; exact hle
    rw [powLoop_signed_ok hs hw (n + 1) (t.w + 1) 1 base (max 1 |base|) e h1 (by omega)
      (le_max_right _ _) (le_max_left _ _) ?_ (fun _ => hB), one_mul]
    rw [abs_one, one_mul]
    refine le_trans ?_ hB
    exact pow_le_pow_right₀ (le_max_left _ _) (by omega)
  · rw [if_neg h]
    exact powLoop_signed_ub hs hw n _ _ _ _ h0 h1 (by omega) h

theorem pow_neg_hangs : ∀ (fuel : Nat), powLoop i32 fuel 1 1 (-1) = .error .hang := by
  intro fuel
  induction fuel with
  | zero => rfl
  | succ fuel ih =>
    have e : mulAssign i32 1 1 = .ok 1 := by decide
    unfold powLoop
    rw [if_neg (by decide), if_pos (by decide), e]
    exact ih

end Rpp.Math
