import Verif.Model.Ieee
import Verif.Spec.Ieee
import Verif.Proof.Dot
import Verif.Proof.Vect

/-! Lemmas on norms in floating point arithmetic. -/

namespace Rpp.Ieee
open Rpp.Angle Rpp.Spec Rpp.Lerp Rpp.Dot

theorem isFloat_pow {p : Nat} (hp : 1 ≤ p) (e : Int) : IsFloat p (2 ^ e) :=
  ⟨1, e, by rw [abs_one]; exact one_lt_pow₀ (by norm_num) (by omega), by simp⟩

theorem round_pow_le {p : Nat} (hp : 1 ≤ p) {e : Int} {x : Rat} (h : 2 ^ e ≤ x) : 2 ^ e ≤ Angle.round p x := by
  rw [← round_float (isFloat_pow hp e)]; exact round_mono hp h

theorem round_le_pow {p : Nat} (hp : 1 ≤ p) {e : Int} {x : Rat} (h : x ≤ 2 ^ e) : Angle.round p x ≤ 2 ^ e := by
  rw [← round_float (isFloat_pow hp e)]; exact round_mono hp h

theorem abs_round (p : Nat) (x : Rat) : |Angle.round p x| = Angle.round p |x| := by
  rcases le_total 0 x with h | h
  · rw [abs_of_nonneg h, abs_of_nonneg (round_nonneg p h)]
  · rw [abs_of_nonpos h, round_neg, abs_of_nonpos]
    have := round_nonneg p (x := -x) (by linarith)
    rw [round_neg] at this
    linarith

/-- In the normal range. -/
theorem rnd_fin {f : Format} (hp : 1 ≤ f.p) {x : Rat} {k : Int} (hk : k < f.emax) (h1 : x = 0 ∨ 2 ^ f.emin ≤ |x|) (h2 : |x| ≤ 2 ^ k) :
    rnd f x = .fin (Angle.round f.p x) := by
  unfold rnd
  dsimp only
  have hr : |Angle.round f.p x| < 2 ^ f.emax := by
    rw [abs_round]
    exact (round_le_pow hp h2).trans_lt (zpow_lt_zpow_right₀ (by norm_num) hk)
  rcases h1 with rfl | h1
  · have : nearest 0 = 0 := by simpa using nearest_int 0
    have hm : (0 : Rat) < 2 ^ f.emin := by positivity
    have hM : ¬ (2 : Rat) ^ f.emax ≤ 0 := by push Not; positivity
    simp [this, hm, hM]
  · rw [if_neg (not_lt.mpr h1), if_neg (not_le.mpr hr)]

theorem rnd_inf {f : Format} (hp : 1 ≤ f.p) (hf : f.emin ≤ f.emax) {x : Rat} (h : 2 ^ f.emax ≤ x) : rnd f x = .inf false := by
  have h0 : (0 : Rat) < 2 ^ f.emax := by positivity
  have hx : 0 ≤ x := by linarith
  unfold rnd
  dsimp only
  rw [if_neg (not_lt.mpr ?_), if_pos ?_, decide_eq_false (by linarith)]
  · rw [abs_round, abs_of_nonneg hx]; exact round_pow_le hp h
  · rw [abs_of_nonneg hx]
    exact (zpow_le_zpow_right₀ (by norm_num) hf).trans h

theorem nearest_small {m : Rat} (h : |m| ≤ 1 / 2) : nearest m = 0 := by
  have h1 := nearest_err m
  have e : nearest (1 / 2) = 0 := by decide +kernel
  have e' : nearest (-(1 / 2)) = 0 := by decide +kernel
  rw [abs_le] at h
  have := nearest_mono h.1
  have := nearest_mono h.2
  omega

theorem rnd_zero {f : Format} (hp : 1 ≤ f.p) {x : Rat} (h : |x| ≤ 2 ^ (f.emin - f.p)) : rnd f x = .fin 0 := by
  have hlt : |x| < 2 ^ f.emin := h.trans_lt (zpow_lt_zpow_right₀ (by norm_num) (by omega))
  have hu : (0 : Rat) < 2 ^ (f.emin - ((f.p : Int) - 1)) := by positivity
  have hn : nearest (x / 2 ^ (f.emin - ((f.p : Int) - 1))) = 0 := by
    apply nearest_small
    rw [abs_div, abs_of_pos hu, div_le_iff₀ hu]
    refine h.trans (le_of_eq ?_)
    rw [show f.emin - ((f.p : Int) - 1) = f.emin - f.p + 1 by ring, zpow_add₀ (by norm_num), zpow_one]
    ring
  unfold rnd
  dsimp only
  rw [if_pos hlt, hn]
  have hM : ¬ (2 : Rat) ^ f.emax ≤ 0 := by push Not; positivity
  simp [hM]

/-- A number that is not negative gives one that is not, or `inf`. -/
theorem rnd_nonneg {f : Format} {x : Rat} (h : 0 ≤ x) : (∃ y, 0 ≤ y ∧ rnd f x = .fin y) ∨ rnd f x = .inf false := by
  have h1 : 0 ≤ (if |x| < 2 ^ f.emin then (nearest (x / 2 ^ (f.emin - ((f.p : Int) - 1))) : Rat) * 2 ^ (f.emin - ((f.p : Int) - 1))
      else Angle.round f.p x) := by
    split
    · have h0 : (0 : Int) ≤ nearest (x / 2 ^ (f.emin - ((f.p : Int) - 1))) := by
        have := nearest_mono (m := 0) (n := x / 2 ^ (f.emin - ((f.p : Int) - 1))) (by positivity)
        rwa [show nearest 0 = 0 by simpa using nearest_int 0] at this
      have : (0 : Rat) ≤ nearest (x / 2 ^ (f.emin - ((f.p : Int) - 1))) := by exact_mod_cast h0
      positivity
    · exact round_nonneg _ h
  unfold rnd
  dsimp only
  generalize (if |x| < 2 ^ f.emin then _ else _ : Rat) = r at *
  by_cases hr : 2 ^ f.emax ≤ |r|
  · exact .inr (by rw [if_pos hr, decide_eq_false (by linarith)])
  · exact .inl ⟨r, h1, if_neg hr⟩

/-- The sum of the squares. -/
def sumSq (f : Format) (x : Nat → Rat) : Nat → F
  | 0 => .fin 0
  | n + 1 => add f (sumSq f x n) (rnd f (x n * x n))

theorem norm2_eq {f : Format} {sq : Rat → Rat} {simd : Bool} {n : Nat} (hs : simd = true → n = 4) (x : Nat → Rat) :
    Vect.norm2 (ops f sq) simd n (fun i => .fin (x i)) = .ok (sumSq f x n) := by
  have loop : ∀ n, Vect.loop (fun i r => do (ops f sq).add r (← (ops f sq).mul (.fin (x i)) (.fin (x i)))) n (ops f sq).zero =
      .ok (sumSq f x n) := fun n => by
    induction n with
    | zero => rfl
    | succ n ih => rw [Vect.loop, ih]; rfl
  cases simd with
  | true => rw [hs rfl]; exact loop 4
  | false => exact loop n

theorem unit_eq {f : Format} {sq : Rat → Rat} {simd : Bool} {n : Nat} (hs : simd = true → n = 4) (x : Nat → Rat) :
    (∃ r, Vect.unit (ops f sq) simd n (fun i => .fin (x i)) = .ok r ∧ ∀ i, i < n → r i = div f (.fin (x i)) (sqrt sq (sumSq f x n))) ∧
    ∃ r, Vect.normalize (ops f sq) simd n (fun i => .fin (x i)) = .ok r ∧
      ∀ i, i < n → r i = div f (.fin (x i)) (sqrt sq (sumSq f x n)) := by
  have hn : Vect.norm (ops f sq) simd n (fun i => .fin (x i)) = .ok (sqrt sq (sumSq f x n)) := by
    unfold Vect.norm
    rw [norm2_eq hs x]
    rfl
  generalize sqrt sq (sumSq f x n) = l at *
  have key : ∀ res : Res (Nat → F), Componentwise n (fun i => (ops f sq).div (.fin (x i)) l) res →
      ∃ r, res = .ok r ∧ ∀ i, i < n → r i = div f (.fin (x i)) l := by
    intro res h
    obtain ⟨r, hr⟩ := h.2 fun i _ => ⟨_, rfl⟩
    refine ⟨r, hr, fun i hi => ?_⟩
    have := h.1 r hr i hi
    dsimp only [ops] at this
    rw [Except.ok.injEq] at this
    exact this.symm
  constructor
  · refine key _ ?_
    unfold Vect.unit
    rw [hn]
    cases simd with
    | true => rw [hs rfl]; exact Vect.cw_lanes
    | false => exact Vect.cw_set
  · refine key _ ?_
    unfold Vect.normalize
    rw [hn]
    cases simd with
    | true => rw [hs rfl]; exact Vect.cw_lanes
    | false => exact Vect.cw_upd (g := fun _ y => (ops f sq).div y l)


/-- In the middle of the range the sum of the squares is as with unbounded exponents, and positive unless all is zero. -/
theorem sumSq_mid {f : Format} (hp : 1 ≤ f.p) {a : Nat} {x : Nat → Rat} {N : Nat} (he : f.emin ≤ -(2 * a : Int))
    (hE : (2 * a + N : Int) < f.emax) (hx : ∀ i, i < N → x i = 0 ∨ 2 ^ (-(a : Int)) ≤ |x i|) (hX : ∀ i, i < N → |x i| ≤ 2 ^ (a : Int)) :
    ∀ n, n ≤ N → sumSq f x n = .fin (dotTwo f.p x x n) ∧ dotTwo f.p x x n ≤ 2 ^ (2 * a + n : Int) ∧
      ((dotTwo f.p x x n = 0 ∧ ∀ i, i < n → x i = 0) ∨ 2 ^ (-(2 * a : Int)) ≤ dotTwo f.p x x n) := by
  intro n
  induction n with
  | zero => intro _; exact ⟨rfl, by simp only [dotTwo]; positivity, .inl ⟨rfl, fun i hi => by omega⟩⟩
  | succ n ih =>
    intro hn
    obtain ⟨h1, h2, h3⟩ := ih (by omega)
    have hX := hX n (by omega)
    have hx := hx n (by omega)
    have h0 : (0 : Rat) < 2 ^ (-(2 * a : Int)) := by positivity
    have hD : 0 ≤ dotTwo f.p x x n := by
      rcases h3 with ⟨h3, _⟩ | h3
      · rw [h3]
      · linarith
    have hsq : |x n * x n| ≤ 2 ^ (2 * a : Int) := by
      rw [abs_mul, show (2 * a : Int) = a + a by ring, zpow_add₀ (by norm_num)]
      gcongr
    have hsq' : x n = 0 ∨ 2 ^ (-(2 * a : Int)) ≤ x n * x n := by
      rcases hx with hx | hx
      · exact .inl hx
      · right
        rw [← abs_mul_abs_self, show -(2 * a : Int) = -(a : Int) + -(a : Int) by ring, zpow_add₀ (by norm_num)]
        gcongr
    have hm : rnd f (x n * x n) = .fin (Angle.round f.p (x n * x n)) := by
      refine rnd_fin hp (k := 2 * a) (by omega) ?_ hsq
      rcases hsq' with h | h
      · left; rw [h, mul_zero]
      · right
        rw [abs_mul_self]
        exact (zpow_le_zpow_right₀ (by norm_num) he).trans h
    have hm0 : 0 ≤ Angle.round f.p (x n * x n) := round_nonneg _ (mul_self_nonneg _)
    have hm1 : Angle.round f.p (x n * x n) ≤ 2 ^ (2 * a : Int) := round_le_pow hp ((le_abs_self _).trans hsq)
    have hm2 : x n = 0 ∨ 2 ^ (-(2 * a : Int)) ≤ Angle.round f.p (x n * x n) := hsq'.imp id fun h => round_pow_le hp h
    have hup : dotTwo f.p x x n + Angle.round f.p (x n * x n) ≤ 2 ^ (2 * a + (n + 1 : Nat) : Int) := by
      have e : (2 : Rat) ^ (2 * a + (n + 1 : Nat) : Int) = 2 ^ (2 * a + n : Int) + 2 ^ (2 * a + n : Int) := by
        rw [show (2 * a + (n + 1 : Nat) : Int) = 2 * a + n + 1 by push_cast; ring, zpow_add_one₀ (by norm_num)]; ring
      have : (2 : Rat) ^ (2 * a : Int) ≤ 2 ^ (2 * a + n : Int) := zpow_le_zpow_right₀ (by norm_num) (by omega)
      rw [e]; linarith
    have hlow : (dotTwo f.p x x n + Angle.round f.p (x n * x n) = 0 ∧ ∀ i, i < n + 1 → x i = 0) ∨
        2 ^ (-(2 * a : Int)) ≤ dotTwo f.p x x n + Angle.round f.p (x n * x n) := by
      rcases hm2 with hm2 | hm2
      · rcases h3 with ⟨h3, h4⟩ | h3
        · left
          refine ⟨by rw [h3, hm2]; simp, fun i hi => ?_⟩
          rcases Nat.lt_succ_iff_lt_or_eq.mp hi with h | rfl
          · exact h4 i h
          · exact hm2
        · right; linarith
      · right; linarith
    refine ⟨?_, round_le_pow hp hup, ?_⟩
    · rw [sumSq, h1, hm]
      refine rnd_fin hp (k := 2 * a + (n + 1 : Nat)) (by push_cast; omega) ?_ ?_
      · rcases hlow with ⟨h, _⟩ | h
        · exact .inl h
        · right
          rw [abs_of_nonneg (by linarith)]
          exact (zpow_le_zpow_right₀ (by norm_num) he).trans h
      · rwa [abs_of_nonneg (by linarith)]
    · rw [dotTwo]
      rcases hlow with ⟨h, h'⟩ | h
      · exact .inl ⟨by rw [h, round_zero], h'⟩
      · exact .inr (round_pow_le hp h)

/-- With a large component the sum is infinite. -/
theorem sumSq_large {f : Format} (hp : 1 ≤ f.p) (hf : f.emin ≤ f.emax) {x : Nat → Rat} :
    ∀ n, ((∃ y, 0 ≤ y ∧ sumSq f x n = .fin y) ∨ sumSq f x n = .inf false) ∧
      ((∃ i, i < n ∧ 2 ^ f.emax ≤ x i * x i) → sumSq f x n = .inf false) := by
  intro n
  induction n with
  | zero => exact ⟨.inl ⟨0, le_refl _, rfl⟩, fun ⟨i, hi, _⟩ => by omega⟩
  | succ n ih =>
    obtain ⟨h1, h2⟩ := ih
    have hm := rnd_nonneg (f := f) (mul_self_nonneg (x n))
    refine ⟨?_, fun ⟨i, hi, hb⟩ => ?_⟩
    · rw [sumSq]
      rcases h1 with ⟨y, hy, h1⟩ | h1 <;> rcases hm with ⟨z, hz, hm⟩ | hm <;> rw [h1, hm]
      · exact rnd_nonneg (by linarith)
      · exact .inr rfl
      · exact .inr rfl
      · exact .inr rfl
    · rw [sumSq]
      rcases Nat.lt_succ_iff_lt_or_eq.mp hi with h | rfl
      · rw [h2 ⟨i, h, hb⟩]
        rcases hm with ⟨z, hz, hm⟩ | hm <;> rw [hm] <;> rfl
      · rw [rnd_inf hp hf hb]
        rcases h1 with ⟨y, hy, h1⟩ | h1 <;> rw [h1] <;> rfl

/-- With small components only the sum is zero. -/
theorem sumSq_small {f : Format} (hp : 1 ≤ f.p) {x : Nat → Rat} : ∀ n, (∀ i, i < n → x i * x i ≤ 2 ^ (f.emin - f.p)) →
    sumSq f x n = .fin 0 := by
  intro n
  induction n with
  | zero => intro _; rfl
  | succ n ih =>
    intro h
    rw [sumSq, ih fun i hi => h i (by omega), rnd_zero hp (by rw [abs_mul_self]; exact h n (by omega))]
    show rnd f (0 + 0) = _
    exact rnd_zero hp (by rw [add_zero, abs_zero]; positivity)

end Rpp.Ieee
