import Verif.Proof.Limits

/-!
# Properties of the limits of types (`rpp/limits.h`) and of sizes (`rpp/math.h`)
-/

namespace Rpp.Props
open Rpp Rpp.Ieee Rpp.Limits.Spec

/-- **C162.** The limits of the integer types are values of the type, and all values of the type are between them. -/
theorem C162_int (t : Limits.IntTy) : (∃ b, value t b = Limits.max t) ∧ (∃ b, value t b = Limits.min t) ∧
    ∀ b, Limits.min t ≤ value t b ∧ value t b ≤ Limits.max t := by
  refine ⟨?_, ?_, ?_⟩
  · cases t
    · exact ⟨255#8, by decide⟩
    · exact ⟨65535#16, by decide⟩
    · exact ⟨0xffffffff#32, by decide⟩
    · exact ⟨0xffffffffffffffff#64, by decide⟩
    · exact ⟨0x7f#8, by decide⟩
    · exact ⟨0x7fff#16, by decide⟩
    · exact ⟨0x7fffffff#32, by decide⟩
    · exact ⟨0x7fffffffffffffff#64, by decide⟩
  · cases t
    · exact ⟨0#8, by decide⟩
    · exact ⟨0#16, by decide⟩
    · exact ⟨0#32, by decide⟩
    · exact ⟨0#64, by decide⟩
    · exact ⟨0x80#8, by decide⟩
    · exact ⟨0x8000#16, by decide⟩
    · exact ⟨0x80000000#32, by decide⟩
    · exact ⟨0x8000000000000000#64, by decide⟩
  · intro b
    cases t
    · exact Limits.unsigned_range (w := 8) b (by decide)
    · exact Limits.unsigned_range (w := 16) b (by decide)
    · exact Limits.unsigned_range (w := 32) b (by decide)
    · exact Limits.unsigned_range (w := 64) b (by decide)
    · exact Limits.signed_range (w := 8) b (by decide) (by decide)
    · exact Limits.signed_range (w := 16) b (by decide) (by decide)
    · exact Limits.signed_range (w := 32) b (by decide) (by decide)
    · exact Limits.signed_range (w := 64) b (by decide) (by decide)

/-- **C162.** The constant `max` is the largest finite number of its type, and `min` the one with the other sign. -/
theorem C162_float (t : Limits.FloatTy) :
    ∃ x, Limits.fmax t = .fin x ∧ Limits.fmin t = .fin (-x) ∧ Num t x ∧ Num t (-x) ∧ ∀ y, Num t y → -x ≤ y ∧ y ≤ x := by
  obtain ⟨h1, h2⟩ := Limits.largest t
  refine ⟨_, Limits.fmax_eq t, by rw [Limits.fmin, Limits.fmax_eq t]; rfl, h1, Limits.num_neg h1, fun y hy => ⟨?_, h2 y hy⟩⟩
  have := h2 _ (Limits.num_neg hy)
  linarith

/-- **C162.** The smallest normal number. -/
theorem C162_normal (t : Limits.FloatTy) : ∃ x, Limits.smallest_norm t = .fin x ∧ 0 < x ∧ Normal t x ∧ ∀ y, Normal t y → 0 < y → x ≤ y :=
  ⟨_, Limits.smallest_norm_eq t, by positivity, (Limits.smallest_normal t).1, (Limits.smallest_normal t).2⟩

/-- **C162.** The smallest positive number. -/
theorem C162_denormal (t : Limits.FloatTy) : ∃ x, Limits.smallest_denorm t = .fin x ∧ 0 < x ∧ Num t x ∧ ∀ y, Num t y → 0 < y → x ≤ y :=
  ⟨_, Limits.smallest_denorm_eq t, by positivity, (Limits.smallest_num t).1, (Limits.smallest_num t).2⟩

/-- **C162.** With `epsilon` one gets from 1 to the next number. -/
theorem C162_epsilon (t : Limits.FloatTy) : ∃ x, Limits.epsilon t = .fin x ∧ 0 < x ∧ Num t (1 + x) ∧ ∀ y, Num t y → 1 < y → 1 + x ≤ y :=
  ⟨_, Limits.epsilon_eq t, by positivity, (Limits.after_one t).1, (Limits.after_one t).2⟩

/-- **C162.** Adding to 1 changes nothing exactly up to half of `epsilon`. -/
theorem C162_epsilon_exact (t : Limits.FloatTy) {e : Rat} (h0 : 0 ≤ e) (h1 : e ≤ 1) :
    ∃ x, Limits.epsilon t = .fin x ∧ (rnd t.fmt (1 + e) = .fin 1 ↔ e ≤ x / 2) := by
  refine ⟨_, Limits.epsilon_eq t, ?_⟩
  rw [Limits.add_one t h0 h1, sub_eq_add_neg, zpow_add₀ (by norm_num), zpow_one, mul_div_cancel_left₀ _ (by norm_num)]

/-- **C162.** Not as the comment in the source puts it: `epsilon` is not the smallest number that changes 1 when it is added. -/
theorem C162_comment (t : Limits.FloatTy) : ∃ x e, Limits.epsilon t = .fin x ∧ Num t e ∧ e < x ∧ rnd t.fmt (1 + e) ≠ .fin 1 := by
  cases t
  · exact ⟨1 / 2 ^ 23, 3 / 2 ^ 25, by decide +kernel, ⟨3, -25, by decide, by decide, by norm_num, by norm_num [bound]⟩, by norm_num, by decide +kernel⟩
  · exact ⟨1 / 2 ^ 52, 3 / 2 ^ 54, by decide +kernel, ⟨3, -54, by decide, by decide, by norm_num, by decide +kernel⟩, by norm_num, by decide +kernel⟩

/-- **C162.** The sizes are the multiples of powers of two, exactly as long as these fit in 64 bits. -/
theorem C162_sizes (n : Nat) : (Limits.KB n = n * 2 ^ 10 ↔ n < 2 ^ 54) ∧ (Limits.MB n = n * 2 ^ 20 ↔ n < 2 ^ 44) ∧
    (Limits.GB n = n * 2 ^ 30 ↔ n < 2 ^ 34) := by
  have h1 : Limits.KB 1024 = 1024 * 1024 := by decide
  have h2 : Limits.MB 1024 = 1024 * 1024 * 1024 := by decide
  unfold Limits.KB Limits.MB Limits.GB
  rw [h1, h2]
  unfold wmul
  omega

example : Limits.GB 3 = 3221225472 ∧ Limits.GB (2 ^ 34) = 0 := by decide

example : Num .f32 (5 / 2) := ⟨5, -1, by decide, by decide, by norm_num, by norm_num [bound]⟩

end Rpp.Props
