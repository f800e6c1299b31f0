import Verif.Proof.Pow16
import Verif.Proof.Math
import Mathlib.Data.Finset.Card
import Mathlib.Data.Finset.Range

/-!
# Properties of the integer functions of `rpp::Math`

`w` is the width of the unsigned type; the code has overloads for 32 and 64.
-/

namespace Rpp.Props
open Rpp Rpp.Spec Rpp.Math

/-- **C01.** For `1 ≤ x ≤ 2^(w-1)`, `next_pow2(x)` is the least power of two that is not below `x`. -/
theorem C01_next_pow2 {w x : Nat} (hw : 0 < w) (h0 : 1 ≤ x) (hx : x ≤ 2 ^ (w - 1)) :
    ∃ r, next_pow2 w x = .ok r ∧ IsPow2 r ∧ x ≤ r ∧ ∀ p, IsPow2 p → x ≤ p → r ≤ p := by
  have hhalf : 2 ^ w = 2 * 2 ^ (w - 1) := by
    obtain ⟨v, rfl⟩ : ∃ v, w = v + 1 := ⟨w - 1, by omega⟩
    rw [Nat.add_sub_cancel, pow_succ]; ring
  have hpos : 0 < 2 ^ (w - 1) := by positivity
  have hxw : x < 2 ^ w := by omega
  obtain ⟨a, b, c, _⟩ := log2_spec h0 hxw
  unfold next_pow2
  rw [prev_pow2_eq h0 hxw]
  simp only [bind, Except.bind]
  by_cases he : x = 2 ^ log2 w x
  · rw [if_pos he]
    exact ⟨x, rfl, ⟨_, he⟩, le_refl _, fun p _ h => h⟩
  · rw [if_neg he]
    have hlt : 2 ^ log2 w x < x := by omega
    have hl1 : log2 w x + 1 ≤ w - 1 := pow2_between hlt hx
    have hfit : 2 ^ (log2 w x + 1) < 2 ^ w := Nat.pow_lt_pow_right (by omega) (by omega)
    refine ⟨2 ^ (log2 w x + 1), ?_, ⟨_, rfl⟩, by omega, ?_⟩
    · unfold shl
      rw [if_pos (by omega), ← Nat.pow_add, Nat.mod_eq_of_lt hfit]
    · rintro p ⟨k, rfl⟩ hp
      exact Nat.pow_le_pow_right (by omega) (pow2_between hlt hp)

/-- **C01**, outside the range: above `2^(w-1)` the result is 0 (there is no such power). -/
theorem C01_next_pow2_overflow {w x : Nat} (hw : 1 < w) (hx : 2 ^ (w - 1) < x) (hxw : x < 2 ^ w) :
    next_pow2 w x = .ok 0 := by
  have hhalf : 2 ^ w = 2 * 2 ^ (w - 1) := by
    obtain ⟨v, rfl⟩ : ∃ v, w = v + 1 := ⟨w - 1, by omega⟩
    rw [Nat.add_sub_cancel, pow_succ]; ring
  obtain ⟨a, b, c, _⟩ := log2_spec (by omega) hxw
  have h1 : log2 w x + 1 ≤ w := by omega
  have h2 : w - 1 < log2 w x + 1 := (Nat.pow_lt_pow_iff_right (by omega : 1 < 2)).mp (by omega)
  have h3 : log2 w x = w - 1 := by omega
  unfold next_pow2
  rw [prev_pow2_eq (by omega) hxw]
  simp only [bind, Except.bind]
  rw [if_neg (by rw [h3]; omega)]
  unfold shl
  rw [if_pos hw, ← Nat.pow_add, h3, show w - 1 + 1 = w by omega, Nat.mod_self]

example : next_pow2 64 (2 ^ 62 + 1) = .ok (2 ^ 63) ∧ next_pow2 64 (2 ^ 63) = .ok (2 ^ 63) ∧
    next_pow2 32 17 = .ok 32 ∧ next_pow2 64 0 = .ok 0 := by decide +kernel

/-- **C02.** For nonzero `x`, `log2(x)` is the `k` with `2^k ≤ x < 2^(k+1)`, `ctlz(x) = w - 1 - k`, and
`prev_pow2(x)` is the greatest power of two not above `x`. -/
theorem C02_log2 {w x : Nat} (h0 : 0 < x) (hx : x < 2 ^ w) :
    2 ^ log2 w x ≤ x ∧ x < 2 ^ (log2 w x + 1) ∧ ctlz w x + log2 w x + 1 = w ∧
    ∃ r, prev_pow2 w x = .ok r ∧ IsPow2 r ∧ r ≤ x ∧ ∀ p, IsPow2 p → p ≤ x → p ≤ r := by
  obtain ⟨a, b, c, d⟩ := log2_spec h0 hx
  refine ⟨b, c, by omega, _, prev_pow2_eq h0 hx, ⟨_, rfl⟩, b, ?_⟩
  rintro p ⟨k, rfl⟩ hp
  refine Nat.pow_le_pow_right (by omega) ?_
  have : 2 ^ k < 2 ^ (log2 w x + 1) := by omega
  have := (Nat.pow_lt_pow_iff_right (by omega : 1 < 2)).mp this
  omega

/-- **C02**, at 0. -/
theorem C02_zero (w : Nat) : ctlz w 0 = w ∧ prev_pow2 w 0 = .ok 0 := by
  constructor <;> rfl

/-- **C99.** `popcount` is the number of positions below the width with a one bit. -/
theorem C99_popcount_counts (w x : Nat) :
    popcount w x = ((Finset.range w).filter (fun i => x.testBit i = true)).card := by
  induction w with
  | zero => simp [popcount]
  | succ k ih =>
    rw [Finset.range_add_one, Finset.filter_insert]
    unfold popcount
    by_cases h : x.testBit k = true
    · rw [if_pos h, if_pos h, Finset.card_insert_of_notMem (by simp), ih]
      omega
    · rw [if_neg h, if_neg h, ih]
      omega

/-- **C99.** It is 0 only for 0, and 1 exactly for the powers of two. -/
theorem C99_popcount_one (w x : Nat) (hx : x < 2 ^ w) :
    (popcount w x = 0 ↔ x = 0) ∧ (popcount w x = 1 ↔ ∃ k, x = 2 ^ k) := by
  have hbit : ∀ i, x.testBit i = true → i < w := by
    intro i hi
    refine Decidable.byContradiction fun c => ?_
    have : x < 2 ^ i := lt_of_lt_of_le hx (Nat.pow_le_pow_right (by omega) (by omega))
    rw [Nat.testBit_lt_two_pow this] at hi
    cases hi
  rw [C99_popcount_counts]
  constructor
  · rw [Finset.card_eq_zero]
    constructor
    · intro h
      apply Nat.eq_of_testBit_eq
      intro i
      rw [Nat.zero_testBit]
      refine Bool.eq_false_iff.2 fun c => ?_
      have : i ∈ (Finset.range w).filter (fun i => x.testBit i = true) := by simp [c, hbit i c]
      rw [h] at this
      simp at this
    · rintro rfl; simp
  · rw [Finset.card_eq_one]
    constructor
    · rintro ⟨k, hk⟩
      refine ⟨k, Nat.eq_of_testBit_eq fun i => ?_⟩
      rw [Nat.testBit_two_pow]
      have : i ∈ (Finset.range w).filter (fun i => x.testBit i = true) ↔ i = k := by rw [hk]; simp
      rw [Bool.eq_iff_iff]
      simp only [decide_eq_true_eq]
      constructor
      · intro c; exact (this.1 (by simp [c, hbit i c])).symm
      · intro c; have := this.2 c.symm; simp at this; exact this.2
    · rintro ⟨k, rfl⟩
      refine ⟨k, ?_⟩
      ext i
      simp only [Finset.mem_filter, Finset.mem_range, Finset.mem_singleton, Nat.testBit_two_pow,
        decide_eq_true_eq]
      constructor
      · rintro ⟨_, h⟩; exact h.symm
      · rintro rfl
        exact ⟨hbit i (by simp [Nat.testBit_two_pow]), rfl⟩

example : popcount 32 0xF0F0 = 8 ∧ popcount 64 (2 ^ 64 - 1) = 64 ∧ popcount 64 (2 ^ 63) = 1 := by
  decide +kernel

example : log2 64 (2 ^ 64 - 1) = 63 ∧ ctlz 64 1 = 63 ∧ prev_pow2 64 (2 ^ 63) = .ok (2 ^ 63) ∧
    log2 32 (2 ^ 31) = 31 := by decide +kernel

/-- **C03.** If the least multiple `m` of `a ≠ 0` not below `x` fits the word, `align(x, a)` is `m`;
if `a` is a power of two, `align_pow2(x, a)` is `m` too. -/
theorem C03_align {w x a m : Nat} (ha : 0 < a) (haw : a < 2 ^ w) (hm : IsRoundUp x a m)
    (hmw : m < 2 ^ w) :
    align w x a = .ok m ∧ (IsPow2 a → align_pow2 w x a = m) := by
  refine ⟨align_eq ha haw hm hmw, ?_⟩
  rintro ⟨k, rfl⟩
  exact align_pow2_eq ((Nat.pow_lt_pow_iff_right (by omega : 1 < 2)).mp haw) hm hmw

/-- **C03.** `align_down` (and `align_down_pow2` for powers of two) give the greatest multiple not
above `x`. -/
theorem C03_align_down {w x a : Nat} (ha : 0 < a) (haw : a < 2 ^ w) (hx : x < 2 ^ w) :
    ∃ m, IsRoundDown x a m ∧ align_down w x a = .ok m ∧ (IsPow2 a → align_down_pow2 w x a = m) := by
  refine ⟨a * (x / a), roundDown_mod ha, align_down_eq ha hx, ?_⟩
  rintro ⟨k, rfl⟩
  exact align_down_pow2_eq ((Nat.pow_lt_pow_iff_right (by omega : 1 < 2)).mp haw) hx

/-- Every `x` has a multiple to be rounded to, so the hypotheses of `C03_align` can be met. -/
theorem C03_roundUp_exists (x : Nat) {a : Nat} (ha : 0 < a) : ∃ m, IsRoundUp x a m :=
  ⟨_, roundUp_of_mod ha⟩

example : align 64 13 8 = .ok 16 ∧ align_pow2 64 13 8 = 16 ∧ align 64 13 5 = .ok 15 ∧
    align_pow2 64 (2 ^ 64 - 8) 8 = 2 ^ 64 - 8 ∧ align_down 32 13 5 = .ok 10 ∧
    align 64 1 0 = .error .ub := by decide +kernel

/-- **C04** (partial). For `u32`, `u64`, `u8`, `i8`, `i16` every power is computed modulo `2^w`, so
exactly whenever it is representable, without undefined behaviour. Missing: `u16` and the wide signed
types, for which the statement is false (below). -/
theorem C04_pow_partial {t : IntTy} (ht : t = u8 ∨ t = u32 ∨ t = u64 ∨ t = i8 ∨ t = i16)
    {base : Int} (hb : t.has base) {e : Nat} (he : t.has e) :
    (∃ r, pow t (t.w + 1) base e = .ok r ∧ t.has r ∧ r % 2 ^ t.w = base ^ e % 2 ^ t.w) ∧
    (t.has (base ^ e) → pow t (t.w + 1) base e = .ok (base ^ e)) := by
  have hwr : Wrapping t := by
    rcases ht with rfl | rfl | rfl | rfl | rfl
    · exact wrapping_u8
    · exact wrapping_unsigned rfl (by decide)
    · exact wrapping_unsigned rfl (by decide)
    · exact wrapping_i8
    · exact wrapping_i16
  have h1 : t.has 1 := by rcases ht with rfl | rfl | rfl | rfl | rfl <;> decide
  have he' : e < 2 ^ t.w := by
    rcases ht with rfl | rfl | rfl | rfl | rfl <;>
      (simp [IntTy.has, IntTy.hi, IntTy.lo, u8, u32, u64, i8, i16] at he ⊢; omega)
  rw [pow_wrapping hwr h1 hb he']
  exact ⟨⟨_, rfl, conv_has hwr.1 _, conv_mod _ _⟩, fun h => by rw [conv_id hwr.1 h]⟩

/-- **C04** (partial), `i32` and `i64`: with `n + 1` binary digits in the exponent, the power is
computed exactly when `base^(2^(n+1))` is representable; otherwise the last, superfluous
`base *= base` overflows. -/
theorem C04_pow_signed_partial {t : IntTy} (ht : t = i32 ∨ t = i64) {base : Int} {e n : Nat}
    (h0 : 2 ^ n ≤ e) (h1 : e < 2 ^ (n + 1)) (he : t.has e) :
    pow t (t.w + 1) base e =
      if t.has (base ^ (2 ^ (n + 1))) then .ok (base ^ e) else .error .ub := by
  have hn : n < t.w := by
    have hew : e < 2 ^ t.w := by
      rcases ht with rfl | rfl <;> (simp [IntTy.has, IntTy.hi, IntTy.lo, i32, i64] at he ⊢; omega)
    exact (Nat.pow_lt_pow_iff_right (by omega : 1 < 2)).mp (lt_of_le_of_lt h0 hew)
  rcases ht with rfl | rfl
  · exact pow_signed rfl (by decide) h0 h1 hn
  · exact pow_signed rfl (by decide) h0 h1 hn

/-- **C04** fails for `i32`: `10^8` is representable, yet computing it is undefined behaviour. Even
`pow(46341, 1)` is. -/
theorem C04_pow_i32_false :
    i32.has ((10 : Int) ^ 8) ∧ pow i32 33 10 8 = .error .ub ∧ pow i32 33 46341 1 = .error .ub := by
  decide +kernel

/-- **C04** fails for `u16`, whose products are computed in `int`: `pow(u16{50000}, 1)`. -/
theorem C04_pow_u16_false : u16.has 50000 ∧ pow u16 17 50000 1 = .error .ub := by decide +kernel

/-- **C04** (partial), `u16`: with `n + 1` binary digits in the exponent, a representable power is
computed exactly when `base^(2^(n+1))` fits `int`; otherwise the last, superfluous `base *= base`
overflows `int`. -/
theorem C04_pow_u16_partial {base e n : Nat} (h0 : 2 ^ n ≤ e) (h1 : e < 2 ^ (n + 1))
    (he : u16.has e) (hr : u16.has ((base : Int) ^ e)) :
    pow u16 (u16.w + 1) base e =
      if i32.has ((base : Int) ^ (2 ^ (n + 1))) then .ok ((base : Int) ^ e) else .error .ub := by
  have hn : n < 16 := by
    have hew : e < 2 ^ 16 := by simp [IntTy.has, IntTy.hi, IntTy.lo, u16] at he ⊢; omega
    exact (Nat.pow_lt_pow_iff_right (by omega : 1 < 2)).mp (lt_of_le_of_lt h0 hew)
  have hb : base ^ e < 2 ^ 16 := by
    have : ((base : Int) ^ e) = ((base ^ e : Nat) : Int) := by push_cast; rfl
    rw [this] at hr
    generalize base ^ e = p at hr ⊢
    simp [IntTy.has, IntTy.hi, IntTy.lo, u16] at hr
    omega
  have := powLoop_u16 n (15 - n) 1 base e h0 h1 (by norm_num) hb (by rw [one_mul]; exact hb)
  have ef : n + 2 + (15 - n) = u16.w + 1 := by simp [u16]; omega
  rw [ef, one_mul] at this
  unfold pow
  rw [Nat.cast_one] at this
  rw [this]
  have hc : ((base : Int) ^ (2 ^ (n + 1))) = ((base ^ (2 ^ (n + 1)) : Nat) : Int) := by
    push_cast; rfl
  have hi : i32.has ((base ^ (2 ^ (n + 1)) : Nat) : Int) ↔ base ^ (2 ^ (n + 1)) < 2 ^ 31 := by
    generalize base ^ (2 ^ (n + 1)) = p
    simp [IntTy.has, IntTy.hi, IntTy.lo, i32]; omega
  rw [hc]
  simp only [hi]
  push_cast
  rfl

/-- **C04** (partial), `u16`: whatever `pow` returns is the power modulo `2^16`. -/
theorem C04_pow_u16_mod {base e fuel : Nat} {x : Int} (h : pow u16 fuel base e = .ok x) :
    u16.has x ∧ x % 2 ^ 16 = (base : Int) ^ e % 2 ^ 16 := by
  have := powLoop_u16_mod fuel 1 base e x (by norm_num) h
  rw [one_mul] at this
  subst this
  have hc : ((base : Int) ^ e) = ((base ^ e : Nat) : Int) := by push_cast; rfl
  rw [hc]
  generalize base ^ e = p
  simp [IntTy.has, IntTy.hi, IntTy.lo, u16]
  omega

example : pow u16 17 255 2 = .error .ub ∧ pow u16 17 200 2 = .ok 40000 ∧
    pow u16 17 3 10 = .ok 59049 ∧ pow u16 17 46340 1 = .ok 46340 ∧
    pow u16 17 3 11 = .ok (3 ^ 11 % 2 ^ 16) := by decide +kernel

/-- **C04**: a negative exponent makes the loop endless (`1^-1`). -/
theorem C04_pow_negative_hangs (fuel : Nat) : pow i32 fuel 1 (-1) = .error .hang :=
  pow_neg_hangs fuel

example : pow u32 33 10 8 = .ok (10 ^ 8) ∧ pow u64 65 3 50 = .ok (3 ^ 50 % 2 ^ 64) ∧
    pow i32 33 (-7) 3 = .ok (-343) ∧ pow i8 9 (-2) 7 = .ok (-128) := by decide +kernel

/-- **C75.** `clamp` returns the nearest point of `[start, stop]`, and the list versions of `min` and
`max` return an extreme element of every nonempty list of values of the type. -/
theorem C75_clamp_min_max {x start stop : Int} (h : start ≤ stop) :
    start ≤ clamp x start stop ∧ clamp x start stop ≤ stop ∧
    (start ≤ x → x ≤ stop → clamp x start stop = x) ∧
    (x < start → clamp x start stop = start) ∧ (stop < x → clamp x start stop = stop) := by
  unfold clamp min2 max2
  split <;> split <;> omega

theorem foldl_min2 : ∀ (l : List Int) (a : Int), l.foldl min2 a ≤ a ∧
    (∀ x ∈ l, l.foldl min2 a ≤ x) ∧ (l.foldl min2 a = a ∨ l.foldl min2 a ∈ l) := by
  intro l
  induction l with
  | nil => intro a; simp
  | cons x l ih =>
    intro a
    obtain ⟨h1, h2, h3⟩ := ih (min2 a x)
    have hm : min2 a x ≤ a ∧ min2 a x ≤ x ∧ (min2 a x = a ∨ min2 a x = x) := by
      unfold min2; split <;> omega
    refine ⟨by simp only [List.foldl_cons]; omega, ?_, ?_⟩
    · intro y hy
      simp only [List.foldl_cons]
      rcases List.mem_cons.mp hy with rfl | hy
      · omega
      · exact h2 y hy
    · simp only [List.foldl_cons, List.mem_cons]
      rcases h3 with h3 | h3
      · rcases hm.2.2 with e | e
        · left; omega
        · right; left; omega
      · right; right; exact h3

theorem foldl_max2 : ∀ (l : List Int) (a : Int), a ≤ l.foldl max2 a ∧
    (∀ x ∈ l, x ≤ l.foldl max2 a) ∧ (l.foldl max2 a = a ∨ l.foldl max2 a ∈ l) := by
  intro l
  induction l with
  | nil => intro a; simp
  | cons x l ih =>
    intro a
    obtain ⟨h1, h2, h3⟩ := ih (max2 a x)
    have hm : a ≤ max2 a x ∧ x ≤ max2 a x ∧ (max2 a x = a ∨ max2 a x = x) := by
      unfold max2; split <;> omega
    refine ⟨by simp only [List.foldl_cons]; omega, ?_, ?_⟩
    · intro y hy
      simp only [List.foldl_cons]
      rcases List.mem_cons.mp hy with rfl | hy
      · omega
      · exact h2 y hy
    · simp only [List.foldl_cons, List.mem_cons]
      rcases h3 with h3 | h3
      · rcases hm.2.2 with e | e
        · left; omega
        · right; left; omega
      · right; right; exact h3

theorem C75_min_list {t : IntTy} {l : List Int} (hne : l ≠ []) (h : ∀ x ∈ l, t.has x) :
    minList t l ∈ l ∧ (∀ x ∈ l, minList t l ≤ x) ∧ maxList t l ∈ l ∧ ∀ x ∈ l, x ≤ maxList t l := by
  obtain ⟨a1, a2, a3⟩ := foldl_min2 l t.hi
  obtain ⟨b1, b2, b3⟩ := foldl_max2 l t.lo
  obtain ⟨y, hy⟩ := List.exists_mem_of_ne_nil l hne
  refine ⟨?_, a2, ?_, b2⟩
  · rcases a3 with e | e
    · have : y = l.foldl min2 t.hi := by
        have := a2 y hy; have := (h y hy).2; omega
      unfold minList; rw [← this]; exact hy
    · exact e
  · rcases b3 with e | e
    · have : y = l.foldl max2 t.lo := by
        have := b2 y hy; have := (h y hy).1; omega
      unfold maxList; rw [← this]; exact hy
    · exact e

example : clamp 12 0 10 = 10 ∧ minList i32 [3, -4, 9] = -4 ∧ maxList u8 [3, 255, 9] = 255 := by
  decide +kernel

/-- **C76.** `abs` is the absolute value for every value but the least, where it is undefined. -/
theorem C76_abs {t : IntTy} (ht : t = i32 ∨ t = i64) {v : Int} (hv : t.has v) :
    iabs t v = if v = t.lo then .error .ub else .ok |v| := by
  have hu : t.usual = t := by rcases ht with rfl | rfl <;> rfl
  have hs : t.signed = true := by rcases ht with rfl | rfl <;> rfl
  have hl : t.lo < 0 ∧ t.hi = -t.lo - 1 := by
    rcases ht with rfl | rfl <;> decide +kernel
  unfold iabs
  by_cases h0 : v < 0
  · rw [if_pos h0]
    unfold arith
    rw [hu, hs, if_pos rfl, abs_of_neg h0]
    unfold IntTy.has at hv
    by_cases he : v = t.lo
    · have hn : ¬ t.has (-v) := by unfold IntTy.has; omega
      rw [if_neg hn, if_pos he]
    · have hn : t.has (-v) := by unfold IntTy.has; omega
      rw [if_pos hn, if_neg he]
  · rw [if_neg h0, if_neg (by omega), abs_of_nonneg (by omega)]

example : iabs i32 (-5) = .ok 5 ∧ iabs i32 (-2 ^ 31) = .error .ub := by decide +kernel

end Rpp.Props
