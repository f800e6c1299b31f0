import Verif.Proof.Duration

/-!
# C164: durations

Full statement: `perf_counter` counts nanoseconds, so that the difference of two readings is the time between them; `Profile::ms` and
`Profile::s` convert such a difference with the accuracy of `f32` and keep the order.
-/

namespace Rpp.Props
open Rpp Rpp.Ieee Rpp.Duration

/-- **C164.** Within 584 years from the start of the clock, the difference of two readings, as the profiler computes it, is the number of
nanoseconds between them. -/
theorem C164_counter {s1 n1 s2 n2 : Nat} (h2 : s2 * 10 ^ 9 + n2 < 2 ^ 64) (h : s1 * 10 ^ 9 + n1 ≤ s2 * 10 ^ 9 + n2) :
    counter s1 n1 ≤ counter s2 n2 ∧ wsub (counter s2 n2) (counter s1 n1) + (s1 * 10 ^ 9 + n1) = s2 * 10 ^ 9 + n2 := by
  unfold counter wsub wadd wmul
  omega

/-- **C164.** After that it starts again, but the difference is still right if the time between the readings is less than 584 years. -/
theorem C164_wraps {s1 n1 s2 n2 : Nat} (h : s1 * 10 ^ 9 + n1 ≤ s2 * 10 ^ 9 + n2) (hd : s2 * 10 ^ 9 + n2 - (s1 * 10 ^ 9 + n1) < 2 ^ 64) :
    wsub (counter s2 n2) (counter s1 n1) = s2 * 10 ^ 9 + n2 - (s1 * 10 ^ 9 + n1) := by
  unfold counter wsub wadd wmul
  omega

/-- **C164.** `ms` and `s` have the accuracy of `f32` for all durations and frequencies: there is no overflow or underflow, and the relative
error is that of one rounding to 24 bits, and little more. -/
theorem C164_accuracy {freq d : Nat} (h0 : 0 < freq) (h1 : freq < 2 ^ 64) (hd : d < 2 ^ 64) :
    ∃ x y : Rat, ms freq d = .fin x ∧ s freq d = .fin y ∧
      |x - (d : Rat) * 1000 / freq| ≤ (d : Rat) * 1000 / freq * (1 / 2 ^ 24 + 1 / 2 ^ 50) ∧
      |y - (d : Rat) / freq| ≤ (d : Rat) / freq * (1 / 2 ^ 24 + 1 / 2 ^ 50) := by
  have hf : (0 : Rat) < freq := by exact_mod_cast h0
  have hd0 : (0 : Rat) ≤ d := by positivity
  refine ⟨_, _, ms_eq h0 h1 hd, s_eq h0 h1 hd, ?_, ?_⟩
  · rw [show (d : Rat) * 1000 / freq = d / (freq / 1000) by field_simp]
    obtain ⟨a1, a2⟩ := near (p := 53) hf.le
    have hr := Angle.round_nonneg 53 hf.le
    obtain ⟨b1, b2⟩ := near (p := 53) (x := Angle.round 53 freq / 1000) (by positivity)
    refine accuracy hd0 (by positivity) (le_trans ?_ b1) (b2.trans ?_)
    · rw [show (freq : Rat) / 1000 * (1 - 1 / 2 ^ 53) ^ 2 = freq * (1 - 1 / 2 ^ 53) / 1000 * (1 - 1 / 2 ^ 53) by ring]
      exact mul_le_mul_of_nonneg_right (div_le_div_of_nonneg_right a1 (by norm_num)) (by norm_num)
    · rw [show (freq : Rat) / 1000 * (1 + 1 / 2 ^ 53) ^ 2 = freq * (1 + 1 / 2 ^ 53) / 1000 * (1 + 1 / 2 ^ 53) by ring]
      exact mul_le_mul_of_nonneg_right (div_le_div_of_nonneg_right a2 (by norm_num)) (by norm_num)
  · obtain ⟨a1, a2⟩ := near (p := 53) hf.le
    refine accuracy hd0 hf (le_trans ?_ a1) (a2.trans ?_)
    · exact mul_le_mul_of_nonneg_left (by norm_num) hf.le
    · exact mul_le_mul_of_nonneg_left (by norm_num) hf.le

/-- **C164.** A longer duration never converts to a smaller number; only the duration of nothing converts to zero. -/
theorem C164_order {freq d e : Nat} (h0 : 0 < freq) (h1 : freq < 2 ^ 64) (hde : d ≤ e) (he : e < 2 ^ 64) :
    (∃ x y : Rat, ms freq d = .fin x ∧ ms freq e = .fin y ∧ x ≤ y) ∧ (∃ x y : Rat, s freq d = .fin x ∧ s freq e = .fin y ∧ x ≤ y) ∧
    (ms freq d = .fin 0 ↔ d = 0) ∧ (s freq d = .fin 0 ↔ d = 0) := by
  have hde' : (d : Rat) ≤ e := by exact_mod_cast hde
  have key (g : Rat) (hg : 0 ≤ g) : Angle.round 24 (Angle.round 53 (Angle.round 53 d / g)) ≤ Angle.round 24 (Angle.round 53 (Angle.round 53 e / g)) :=
    Angle.round_mono (by decide) (Angle.round_mono (by decide) (div_le_div_of_nonneg_right (Angle.round_mono (by decide) hde') hg))
  have hf : (0 : Rat) < freq := by exact_mod_cast h0
  have hr := Angle.round_nonneg 53 hf.le
  have zero : ms freq 0 = .fin 0 ∧ s freq 0 = .fin 0 := by
    rw [ms_eq h0 h1 (by decide), s_eq h0 h1 (by decide)]
    simp
  obtain ⟨x, y, ex, ey, bx, byy⟩ := C164_accuracy h0 h1 (lt_of_le_of_lt hde he)
  have pos (c z : Rat) (hc : 0 < c) (hz : |z - (d : Rat) * c| ≤ (d : Rat) * c * (1 / 2 ^ 24 + 1 / 2 ^ 50)) (h : z = 0) : d = 0 := by
    by_contra hn
    have : 0 < (d : Rat) * c := mul_pos (by exact_mod_cast Nat.pos_of_ne_zero hn) hc
    rw [h, zero_sub, abs_neg, abs_of_pos this] at hz
    nlinarith
  refine ⟨⟨_, _, ms_eq h0 h1 (lt_of_le_of_lt hde he), ms_eq h0 h1 he, key _ (Angle.round_nonneg 53 (by positivity))⟩,
    ⟨_, _, s_eq h0 h1 (lt_of_le_of_lt hde he), s_eq h0 h1 he, key _ hr⟩, ⟨fun h => ?_, fun h => by rw [h]; exact zero.1⟩,
    ⟨fun h => ?_, fun h => by rw [h]; exact zero.2⟩⟩
  · rw [ex] at h
    exact pos (1000 / freq) x (by positivity) (by rw [← mul_div_assoc]; exact bx) (F.fin.inj h)
  · rw [ey] at h
    exact pos (1 / freq) y (by positivity) (by rw [mul_one_div]; exact byy) (F.fin.inj h)

/-- **C164.** With the frequency of Linux and macOS, whole milliseconds up to 2 ^ 24 of them (more than four hours) and whole seconds up to
2 ^ 23 are exact. -/
theorem C164_exact (k : Nat) : (k ≤ 2 ^ 24 → ms frequency (k * 10 ^ 6) = .fin k) ∧ (k ≤ 2 ^ 23 → s frequency (k * 10 ^ 9) = .fin k) := by
  have fl : Angle.round 53 ((frequency : Nat) : Rat) = 10 ^ 9 := by
    rw [show ((frequency : Nat) : Rat) = ((10 ^ 9 : Int) : Rat) by unfold frequency; norm_num]
    rw [Angle.round_float (Angle.isFloat_int (by norm_num))]
    norm_num
  have fl' : Angle.round 53 ((10 : Rat) ^ 9 / 1000) = 10 ^ 6 := by
    rw [show (10 : Rat) ^ 9 / 1000 = ((10 ^ 6 : Int) : Rat) by norm_num]
    rw [Angle.round_float (Angle.isFloat_int (by norm_num))]
    norm_num
  have whole (p : Nat) (hp : 1 ≤ p) (n : Nat) (h : n ≤ 2 ^ p) : Angle.round p (n : Rat) = n := by
    rcases Nat.lt_or_ge n (2 ^ p) with h' | h'
    · have := Angle.round_float (Angle.isFloat_int (p := p) (k := n) (by rw [abs_of_nonneg (by positivity)]; exact_mod_cast h'))
      exact_mod_cast this
    · have e : n = 2 ^ p := by omega
      have := Angle.round_float (isFloat_pow (p := p) hp (p : Int))
      rw [e]
      push_cast
      rw [zpow_natCast] at this
      exact this
  refine ⟨fun h => ?_, fun h => ?_⟩
  · rw [ms_eq (by decide) (by decide) (by omega), fl, fl', whole 53 (by decide) (k * 10 ^ 6) (by omega)]
    rw [show ((k * 10 ^ 6 : Nat) : Rat) / 10 ^ 6 = k by push_cast; exact mul_div_cancel_right₀ _ (by norm_num), whole 53 (by decide) k (by omega), whole 24 (by decide) k h]
  · rw [s_eq (by decide) (by decide) (by omega), fl, whole 53 (by decide) (k * 10 ^ 9) (by omega)]
    rw [show ((k * 10 ^ 9 : Nat) : Rat) / 10 ^ 9 = k by push_cast; exact mul_div_cancel_right₀ _ (by norm_num), whole 53 (by decide) k (by omega), whole 24 (by decide) k (by omega)]

/-- Two readings, half a second apart across a full second; 16.7 ms of 60 frames per second, on Windows with its 10 MHz. -/
example : wsub (counter 8 250000000) (counter 7 750000000) = 500 * 10 ^ 6 ∧ ms frequency (500 * 10 ^ 6) = .fin 500 ∧
    ∃ x, ms 10000000 166667 = .fin x ∧ |x - 166667 / 10000| < 1 / 10 ^ 6 := by
  refine ⟨by decide, by simpa using (C164_exact 500).1 (by decide), ?_⟩
  obtain ⟨x, _, h, _, b, _⟩ := C164_accuracy (freq := 10000000) (d := 166667) (by decide) (by decide) (by decide)
  norm_num at b
  refine ⟨x, h, ?_⟩
  norm_num
  exact b.trans_lt (by norm_num)

end Rpp.Props
