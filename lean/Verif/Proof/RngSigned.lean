import Verif.Proof.Rng
import Mathlib.Data.Nat.Factorization.Basic
import Mathlib.Algebra.BigOperators.Intervals

/-! Lemmas on `range` for signed types. -/

namespace Rpp.RNG
open Rpp Rpp.Math Rpp.Spec

theorem count_multiples (h d : Nat) : Nat.count (fun k => ¬ d ∣ k + 1) h = h - h / d := by
  rw [Nat.count_eq_card_filter_range]
  have h1 := Nat.card_multiples h d
  have h2 := Finset.card_filter_add_card_filter_not (s := Finset.range h) (fun k => d ∣ k + 1)
  rw [Finset.card_range] at h2
  omega

theorem count_reflect (P : Nat → Prop) [DecidablePred P] (h : Nat) :
    Nat.count (fun k => P (h - k)) h = Nat.count (fun k => P (k + 1)) h := by
  rw [Nat.count_eq_card_filter_range, Nat.count_eq_card_filter_range, Finset.card_filter, Finset.card_filter,
    ← Finset.sum_range_reflect]
  refine Finset.sum_congr rfl fun k hk => ?_
  rw [Finset.mem_range] at hk
  rw [show h - (h - 1 - k) = k + 1 by omega]

/-- The negative values that are not multiples. -/
theorem count_negative (h d : Nat) :
    Nat.count (fun y => h ≤ y ∧ ¬ d ∣ 2 * h - y) (2 * h) = h - h / d := by
  rw [Nat.two_mul, Nat.count_add]
  have e1 : Nat.count (fun y => h ≤ y ∧ ¬ d ∣ h + h - y) h = 0 := by
    rw [Nat.count_eq_card_filter_range, Finset.card_eq_zero, Finset.filter_eq_empty_iff]
    intro x hx
    rw [Finset.mem_range] at hx
    omega
  have e2 : Nat.count (fun k => h ≤ h + k ∧ ¬ d ∣ h + h - (h + k)) h = Nat.count (fun k => ¬ d ∣ h - k) h := by
    rw [Nat.count_eq_card_filter_range, Nat.count_eq_card_filter_range]
    congr 1
    refine Finset.filter_congr fun k _ => ?_
    rw [show h + h - (h + k) = h - k by omega]
    simp
  rw [e1, e2, count_reflect (fun n => ¬ d ∣ n), count_multiples, Nat.zero_add]

/-- Conversion to a signed type, on the lowest bits. -/
theorem conv_signed {t : IntTy} (hs : t.signed = true) (h0 : 0 < t.w) (n : Nat) :
    conv t n = if 2 ^ (t.w - 1) ≤ n % 2 ^ t.w then -((2 ^ t.w - n % 2 ^ t.w : Nat) : Int) else ((n % 2 ^ t.w : Nat) : Int) := by
  have h1 : n % 2 ^ t.w < 2 ^ t.w := Nat.mod_lt _ (Nat.pow_pos (by omega))
  have e : (n : Int) % 2 ^ t.w = ((n % 2 ^ t.w : Nat) : Int) := by push_cast; rfl
  have e' : ((2 : Int) ^ (t.w - 1) ≤ ((n % 2 ^ t.w : Nat) : Int)) ↔ 2 ^ (t.w - 1) ≤ n % 2 ^ t.w := by
    rw [show ((2 : Int) ^ (t.w - 1)) = ((2 ^ (t.w - 1) : Nat) : Int) by push_cast; rfl]
    exact Int.ofNat_le
  unfold conv
  dsimp only
  rw [e, hs, show ((2 : Int) ^ t.w) = ((2 ^ t.w : Nat) : Int) by push_cast; rfl]
  by_cases hc : 2 ^ (t.w - 1) ≤ n % 2 ^ t.w
  · rw [if_pos ⟨rfl, e'.2 hc⟩, if_pos hc]; omega
  · rw [if_neg fun h => hc (e'.1 h.2), if_neg hc]

theorem tmod_neg_iff {x d : Nat} (hd : 0 < d) : (-(x : Int)).tmod d < 0 ↔ ¬ d ∣ x := by
  rw [Int.neg_tmod, ← Int.ofNat_tmod, Nat.dvd_iff_mod_eq_zero]
  omega

/-- The draw is out of range exactly if the remainder is negative. -/
theorem range_bad {t : IntTy} (hs : t.signed = true) (h0 : 0 < t.w) {min max : Int} (hmin : t.has min) (hmax : t.has max)
    (hlt : min < max) (hr : t.has (max - min)) (s : BitVec 64) :
    (¬ ∃ v, (range t min max s).map (·.1) = .ok v ∧ min ≤ v ∧ v < max) ↔ (conv t (next s).toNat).tmod (max - min) < 0 := by
  generalize hx : conv t (next s).toNat = x
  have hm1 : x.tmod (max - min) < max - min := Int.tmod_lt_of_pos _ (by omega)
  have hm2 : -(max - min) < x.tmod (max - min) := by
    have := Int.lt_tmod_of_pos x (show 0 < max - min by omega)
    exact this
  have e : rem t x (max - min) = .ok (x.tmod (max - min)) := by
    unfold rem
    rw [if_neg (by omega), if_neg (by omega)]
  have er : range t min max s = (arith t (min + x.tmod (max - min))).bind (fun a => .ok (conv t a, next s)) := by
    unfold range
    simp only [bind, Except.bind, arith_ok h0 hr, conv_id h0 hr, hx, e]
    rfl
  rw [er]
  constructor
  · intro h
    by_contra hn
    apply h
    have hv : t.has (min + x.tmod (max - min)) := by unfold IntTy.has at hmin hmax ⊢; omega
    refine ⟨min + x.tmod (max - min), ?_, by omega, by omega⟩
    rw [arith_ok h0 hv]
    show Except.ok (conv t _) = _
    rw [conv_id h0 hv]
  · rintro hn ⟨v, hv, h1, h2⟩
    have ha : arith t (min + x.tmod (max - min)) = .ok (min + x.tmod (max - min)) := by
      unfold arith at hv ⊢
      have hu : t.usual.signed = true := by
        unfold IntTy.usual; split
        · rfl
        · exact hs
      rw [if_pos hu] at hv ⊢
      split
      · rfl
      · rename_i hc; rw [if_neg hc] at hv; cases hv
    rw [ha] at hv
    have hv : conv t (min + x.tmod (max - min)) = v := Except.ok.inj hv
    by_cases hin : t.has (min + x.tmod (max - min))
    · rw [conv_id h0 hin] at hv; omega
    · have h2w : (2 : Int) ^ t.w = 2 * 2 ^ (t.w - 1) := two_pow_half h0
      have hp : (0 : Int) < 2 ^ (t.w - 1) := Int.pow_pos (by omega)
      unfold IntTy.has IntTy.lo IntTy.hi at hmin hmax hr hin
      rw [hs] at hmin hmax hr hin
      simp only [if_true] at hmin hmax hr hin
      have hb : (min + x.tmod (max - min)) % 2 ^ t.w = min + x.tmod (max - min) + 2 ^ t.w := by
        rw [← Int.add_emod_right]
        exact Int.emod_eq_of_lt (by omega) (by omega)
      unfold conv at hv
      dsimp only at hv
      rw [hb, hs] at hv
      split at hv <;> rename_i hc <;> simp at hc <;> omega

end Rpp.RNG
