import Verif.Proof.RngSigned

/-!
# C10 for signed types, exactly

How many of the `2 ^ 64` states of the generator make `range` leave the interval.
-/

namespace Rpp.Props
open Rpp Rpp.Math Rpp.RNG Rpp.Spec

/-- If the length `d` of the interval is a value of the signed type, then exactly the draws that are negative and no multiple
of `d` give no value in the interval: a share of `1/2 - 1/(2d)` of all states, wherever the interval lies. -/
theorem C10_signed_exact {t : IntTy} (hs : t.signed = true) (h0 : 0 < t.w) (h64 : t.w ≤ 64) {min max : Int}
    (hmin : t.has min) (hmax : t.has max) (d : Nat) (hd : max = min + d) (h1 : 0 < d) (hr : t.has d) :
    states (fun s => ¬ ∃ v, (range t min max s).map (·.1) = .ok v ∧ min ≤ v ∧ v < max) =
      2 ^ (64 - t.w) * (2 ^ (t.w - 1) - 2 ^ (t.w - 1) / d) := by
  have hdd : max - min = d := by omega
  have hw : 2 ^ t.w = 2 * 2 ^ (t.w - 1) := by
    rw [← Nat.pow_succ']; congr 1; omega
  have e : (fun s => ¬ ∃ v, (range t min max s).map (·.1) = .ok v ∧ min ≤ v ∧ v < max) =
      fun s => (fun y => 2 ^ (t.w - 1) ≤ y ∧ ¬ d ∣ 2 * 2 ^ (t.w - 1) - y) ((next s).toNat % 2 ^ t.w) := by
    funext s
    rw [range_bad hs h0 hmin hmax (by omega) (by rw [hdd]; exact hr), hdd, conv_signed hs h0]
    refine propext ?_
    dsimp only
    rw [← hw]
    split
    · rename_i hc
      rw [tmod_neg_iff h1]
      simp [hc]
    · rename_i hc
      rw [← Int.ofNat_tmod]
      exact ⟨fun h => absurd h (by omega), fun h => absurd h.1 hc⟩
  rw [e, states_next (fun n => (fun y => 2 ^ (t.w - 1) ≤ y ∧ ¬ d ∣ 2 * 2 ^ (t.w - 1) - y) (n % 2 ^ t.w)),
    show (2 : Nat) ^ 64 = 2 ^ (64 - t.w) * 2 ^ t.w by rw [← Nat.pow_add]; congr 1; omega,
    count_block (fun y => 2 ^ (t.w - 1) ≤ y ∧ ¬ d ∣ 2 * 2 ^ (t.w - 1) - y)]
  congr 1
  rw [hw]
  exact count_negative _ d

/-- So for a signed type of at least two bits only intervals with a single value are safe: every longer one is left by some state. -/
theorem C10_signed_only {t : IntTy} (hs : t.signed = true) (h0 : 1 < t.w) (h64 : t.w ≤ 64) {min max : Int}
    (hmin : t.has min) (hmax : t.has max) (d : Nat) (hd : max = min + d) (h1 : 0 < d) (hr : t.has d) :
    (∀ s, ∃ v, (range t min max s).map (·.1) = .ok v ∧ min ≤ v ∧ v < max) ↔ d = 1 := by
  have hc := C10_signed_exact hs (by omega) h64 hmin hmax d hd h1 hr
  have hp : 2 ≤ 2 ^ (t.w - 1) := by
    calc 2 = 2 ^ 1 := rfl
      _ ≤ 2 ^ (t.w - 1) := Nat.pow_le_pow_right (by omega) (by omega)
  constructor
  · intro h
    have hz : states (fun s => ¬ ∃ v, (range t min max s).map (·.1) = .ok v ∧ min ≤ v ∧ v < max) = 0 := by
      unfold states
      rw [Nat.card_eq_zero]
      exact .inl ⟨fun ⟨s, hs⟩ => hs (h s)⟩
    rw [hz] at hc
    by_contra hne
    have : 2 ^ (t.w - 1) / d < 2 ^ (t.w - 1) := Nat.div_lt_self (by omega) (by omega)
    have h2 : 0 < 2 ^ (64 - t.w) := Nat.pow_pos (by omega)
    have := Nat.mul_pos h2 (show 0 < 2 ^ (t.w - 1) - 2 ^ (t.w - 1) / d by omega)
    omega
  · rintro rfl s
    by_contra hn
    have := (range_bad hs (by omega) hmin hmax (by omega) (by rw [show max - min = ((1 : Nat) : Int) by omega]; exact hr) s).1 hn
    rw [show max - min = 1 by omega, Int.tmod_one] at this
    omega

/-- If the length is no value of the type, which has at least 32 bits, the subtraction overflows whatever the state. -/
theorem C10_signed_wide {t : IntTy} (hs : t.signed = true) (h32 : 32 ≤ t.w) {min max : Int} (hr : ¬ t.has (max - min)) (s : BitVec 64) :
    range t min max s = .error .ub := by
  have hu : t.usual = t := by unfold IntTy.usual; rw [if_neg (by omega)]
  have : arith t (max - min) = .error .ub := by unfold arith; rw [hu, if_pos hs, if_neg hr]
  unfold range
  rw [this]
  rfl

/-- Almost half of all states: with `range<i32>(0, 10)` nine tenths of one half. -/
example : states (fun s => ¬ ∃ v, (range i32 0 10 s).map (·.1) = .ok v ∧ 0 ≤ v ∧ v < 10) = 2 ^ 32 * 1932735284 :=
  C10_signed_exact rfl (by decide) (by decide) (by decide) (by decide) 10 (by decide) (by decide) (by decide)

example : ¬ i64.has (2 ^ 62 - (-2 ^ 62)) ∧ i64.has (2 ^ 62) ∧ i64.has (-2 ^ 62) := by decide

end Rpp.Props
