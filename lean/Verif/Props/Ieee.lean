import Verif.Proof.Ieee
import Mathlib.Data.Real.Sqrt

/-!
# C153: vectors of length one

Full statement: `unit()` and `normalize()` give a vector with the same direction and length one, up to rounding, for every vector that is
not zero. False of the code for vectors that are very long or very short (`C153_long`, `C153_short`).
-/

namespace Rpp.Props
open Rpp.Ieee Rpp.Spec Rpp.Angle Rpp.Dot

/-- Both results are the vector `r` of finite numbers. -/
def Gives (f : Format) (root : Rat → Rat) (simd : Bool) (n : Nat) (x r : Nat → Rat) : Prop :=
  (∃ v, Vect.unit (ops f root) simd n (fun i => .fin (x i)) = .ok v ∧ ∀ i, i < n → v i = .fin (r i)) ∧
  ∃ v, Vect.normalize (ops f root) simd n (fun i => .fin (x i)) = .ok v ∧ ∀ i, i < n → v i = .fin (r i)

/-- **C153, partial.** If the components that are not zero have magnitudes from `2 ^ -a` to `2 ^ a`, with `a` about a quarter of the range of
exponents, the results are finite, and each component has the sign of the operand's and, squared, differs by a bounded factor from what is
exact: with `u` the error of one rounding, `d` that of the square root and `n` components, from `(1-u)² / ((1+d)² (1+u)ⁿ)` to
`(1+u)² / ((1-d)² (2-(1+u)ⁿ))`. Missing: longer and shorter vectors. -/
theorem C153_unit_partial {f : Format} (hp : 1 ≤ f.p) {root : Rat → Rat} {d : Rat} (hd : d ≤ 1 / 2) (hq : IsSqrt d root)
    {simd : Bool} {n : Nat} (hs : simd = true → n = 4) {a : Nat} (he : f.emin ≤ -(2 * a + n + 1 : Int)) (hE : (2 * a + n : Int) < f.emax)
    {x : Nat → Rat} (hx : ∀ i, i < n → x i = 0 ∨ 2 ^ (-(a : Int)) ≤ |x i|) (hX : ∀ i, i < n → |x i| ≤ 2 ^ (a : Int))
    (h0 : ∃ i, i < n ∧ x i ≠ 0) :
    let u : Rat := 1 / 2 ^ f.p
    let N := ∑ i ∈ Finset.range n, x i ^ 2
    ∃ r : Nat → Rat, Gives f root simd n x r ∧ ∀ i, i < n → 0 ≤ x i * r i ∧
      (1 - u) ^ 2 * x i ^ 2 ≤ (1 + d) ^ 2 * (1 + u) ^ n * (N * r i ^ 2) ∧
      (1 - d) ^ 2 * (2 - (1 + u) ^ n) * (N * r i ^ 2) ≤ (1 + u) ^ 2 * x i ^ 2 := by
  intro u N
  have hu0 : 0 < u := by positivity
  have hu1 : u ≤ 1 := by
    show (1 : Rat) / 2 ^ f.p ≤ 1
    rw [div_le_one (by positivity)]
    exact one_le_pow₀ (by norm_num)
  obtain ⟨j, hj, hj0⟩ := h0
  obtain ⟨hS, hD1, hD2⟩ := sumSq_mid hp (by omega) hE hx hX n (le_refl n)
  have hD2 : 2 ^ (-(2 * a : Int)) ≤ dotTwo f.p x x n := by
    rcases hD2 with ⟨_, h⟩ | h
    · exact absurd (h j hj) hj0
    · exact h
  have herr := dotTwo_err hp x x n
  have hN : ∑ i ∈ Finset.range n, |x i * x i| = N :=
    Finset.sum_congr rfl fun i _ => by rw [abs_mul_self, sq]
  have hN' : ∑ i ∈ Finset.range n, x i * x i = N := Finset.sum_congr rfl fun i _ => (sq (x i)).symm
  rw [hN, hN', abs_le] at herr
  have hN0 : 0 ≤ N := Finset.sum_nonneg fun i _ => sq_nonneg _
  generalize dotTwo f.p x x n = D at *
  have hDpos : 0 < D := lt_of_lt_of_le (by positivity) hD2
  obtain ⟨hl0, hl1, hl2⟩ := hq D hDpos.le
  have hd0 : 0 ≤ d := by
    by_contra h
    have : (1 + d) ^ 2 * D < (1 - d) ^ 2 * D := by nlinarith
    linarith
  generalize hl : root D = l at *
  have hlpos : 0 < l := by
    rcases hl0.lt_or_eq with h | h
    · exact h
    · rw [← h] at hl1
      have : 0 < (1 - d) ^ 2 * D := mul_pos (by nlinarith) hDpos
      linarith
  -- the length is in the middle of the range
  have hlle : l ≤ 2 ^ (a + n + 1 : Int) := by
    refine le_of_sq_le_sq ?_ (by positivity)
    have e : ((2 : Rat) ^ (a + n + 1 : Int)) ^ 2 = 4 * 2 ^ (2 * a + n : Int) * 2 ^ (n : Int) := by
      rw [show (4 : Rat) = 2 ^ (2 : Int) by norm_num, ← zpow_natCast, ← zpow_mul, ← zpow_add₀ (by norm_num), ← zpow_add₀ (by norm_num)]
      congr 1
      push_cast
      ring
    rw [e]
    have h1 : (1 : Rat) ≤ 2 ^ (n : Int) := one_le_zpow₀ (by norm_num) (by omega)
    have h2 : (0 : Rat) < 2 ^ (2 * a + n : Int) := by positivity
    have h3 : (1 + d) ^ 2 ≤ 4 := by nlinarith
    have h4 : (1 + d) ^ 2 * D ≤ 4 * 2 ^ (2 * a + n : Int) := mul_le_mul h3 hD1 hDpos.le (by norm_num)
    nlinarith
  have hlge : 2 ^ (-(a + 1) : Int) ≤ l := by
    refine le_of_sq_le_sq ?_ hl0
    have e : ((2 : Rat) ^ (-(a + 1) : Int)) ^ 2 = 1 / 4 * 2 ^ (-(2 * a : Int)) := by
      rw [show (1 / 4 : Rat) = 2 ^ (-2 : Int) by norm_num, ← zpow_natCast, ← zpow_mul, ← zpow_add₀ (by norm_num)]
      congr 1
      push_cast
      ring
    rw [e]
    have h3 : 1 / 4 ≤ (1 - d) ^ 2 := by nlinarith
    have h4 : 1 / 4 * 2 ^ (-(2 * a : Int)) ≤ (1 - d) ^ 2 * D := mul_le_mul h3 hD2 (by positivity) (sq_nonneg _)
    linarith
  have hdiv : ∀ i, i < n → div f (.fin (x i)) (Ieee.sqrt root (sumSq f x n)) = .fin (Angle.round f.p (x i / l)) := fun i hi => by
    rw [hS]
    have e1 : Ieee.sqrt root (.fin D) = .fin l := by
      show (if D < 0 then _ else F.fin (root D)) = _
      rw [if_neg (by linarith), hl]
    rw [e1]
    show (if l = 0 then _ else rnd f (x i / l)) = _
    rw [if_neg hlpos.ne']
    refine rnd_fin hp (k := 2 * a + n) hE ?_ ?_
    · rcases hx i hi with h | h
      · left; rw [h, zero_div]
      · right
        rw [abs_div, abs_of_pos hlpos, le_div_iff₀ hlpos]
        have h1 : (2 : Rat) ^ f.emin ≤ 2 ^ (-(2 * a + n + 1) : Int) := zpow_le_zpow_right₀ (by norm_num) he
        calc (2 : Rat) ^ f.emin * l ≤ 2 ^ (-(2 * a + n + 1) : Int) * 2 ^ (a + n + 1 : Int) := by gcongr
          _ = 2 ^ (-(a : Int)) := by rw [← zpow_add₀ (by norm_num)]; congr 1; ring
          _ ≤ _ := h
    · rw [abs_div, abs_of_pos hlpos, div_le_iff₀ hlpos]
      calc |x i| ≤ 2 ^ (a : Int) := hX i hi
        _ ≤ 2 ^ (2 * a + n + -(a + 1) : Int) := zpow_le_zpow_right₀ (by norm_num) (by omega)
        _ = 2 ^ (2 * a + n : Int) * 2 ^ (-(a + 1) : Int) := zpow_add₀ (by norm_num) _ _
        _ ≤ _ := by gcongr
  refine ⟨fun i => Angle.round f.p (x i / l), ?_, fun i hi => ?_⟩
  · obtain ⟨⟨v, hv, hv'⟩, w, hw, hw'⟩ := unit_eq (f := f) (sq := root) hs x
    exact ⟨⟨v, hv, fun i hi => by rw [hv' i hi, hdiv i hi]⟩, w, hw, fun i hi => by rw [hw' i hi, hdiv i hi]⟩
  · dsimp only
    have hr := round_err f.p (x i / l)
    have hmul : x i = x i / l * l := (div_mul_cancel₀ _ hlpos.ne').symm
    have hxl : x i ^ 2 = (x i / l) ^ 2 * l ^ 2 := by rw [← mul_pow, ← hmul]
    have hsign : 0 ≤ x i / l * Angle.round f.p (x i / l) := by
      rcases le_total 0 (x i / l) with h | h
      · exact mul_nonneg h (round_nonneg _ h)
      · have := round_nonneg f.p (x := -(x i / l)) (by linarith)
        rw [round_neg] at this
        nlinarith
    generalize x i / l = y at *
    generalize Angle.round f.p y = r at *
    have hr : |r - y| ≤ u * |y| := hr.trans (le_of_eq (by show |y| / 2 ^ f.p = 1 / 2 ^ f.p * |y|; ring))
    have ha : |r| ≤ (1 + u) * |y| := by
      have := abs_add_le (r - y) y
      rw [sub_add_cancel] at this
      linarith
    have hb : (1 - u) * |y| ≤ |r| := by
      have := abs_add_le (y - r) r
      rw [sub_add_cancel, abs_sub_comm] at this
      linarith
    have ha2 : r ^ 2 ≤ (1 + u) ^ 2 * y ^ 2 := by
      rw [← sq_abs r, ← sq_abs y, ← mul_pow]
      exact pow_le_pow_left₀ (abs_nonneg _) ha 2
    have hb2 : (1 - u) ^ 2 * y ^ 2 ≤ r ^ 2 := by
      rw [← sq_abs r, ← sq_abs y, ← mul_pow]
      exact pow_le_pow_left₀ (mul_nonneg (by linarith) (abs_nonneg _)) hb 2
    have hlsq : 0 ≤ l ^ 2 := sq_nonneg l
    have hrsq : 0 ≤ r ^ 2 := sq_nonneg r
    refine ⟨?_, ?_, ?_⟩
    · rw [hmul]
      have : 0 ≤ l * (y * r) := mul_nonneg hl0 hsign
      linarith
    · have h1 : l ^ 2 ≤ (1 + d) ^ 2 * ((1 + u) ^ n * N) := by
        refine hl2.trans (mul_le_mul_of_nonneg_left ?_ (sq_nonneg _))
        linarith [herr.2]
      calc (1 - u) ^ 2 * x i ^ 2 = (1 - u) ^ 2 * y ^ 2 * l ^ 2 := by rw [hxl]; ring
        _ ≤ r ^ 2 * l ^ 2 := mul_le_mul_of_nonneg_right hb2 hlsq
        _ ≤ r ^ 2 * ((1 + d) ^ 2 * ((1 + u) ^ n * N)) := mul_le_mul_of_nonneg_left h1 hrsq
        _ = _ := by ring
    · have h1 : (1 - d) ^ 2 * ((2 - (1 + u) ^ n) * N) ≤ l ^ 2 := by
        refine le_trans (mul_le_mul_of_nonneg_left ?_ (sq_nonneg _)) hl1
        linarith [herr.1]
      calc _ = r ^ 2 * ((1 - d) ^ 2 * ((2 - (1 + u) ^ n) * N)) := by ring
        _ ≤ r ^ 2 * l ^ 2 := mul_le_mul_of_nonneg_left h1 hrsq
        _ ≤ (1 + u) ^ 2 * y ^ 2 * l ^ 2 := mul_le_mul_of_nonneg_right ha2 hlsq
        _ = _ := by rw [hxl]; ring

/-- In `f32` and `f64`, with square roots as accurate as rounding, the square of the length of the result differs from 1 by less than
`2 ^ -20`. -/
theorem C153_length {f : Format} (hp : 24 ≤ f.p) {root : Rat → Rat} {d : Rat} (hd : d ≤ 1 / 2 ^ 24) (hq : IsSqrt d root)
    {simd : Bool} {n : Nat} (hn : n ≤ 4) (hs : simd = true → n = 4) {a : Nat} (he : f.emin ≤ -(2 * a + n + 1 : Int))
    (hE : (2 * a + n : Int) < f.emax) {x : Nat → Rat} (hx : ∀ i, i < n → x i = 0 ∨ 2 ^ (-(a : Int)) ≤ |x i|)
    (hX : ∀ i, i < n → |x i| ≤ 2 ^ (a : Int)) (h0 : ∃ i, i < n ∧ x i ≠ 0) :
    ∃ r : Nat → Rat, Gives f root simd n x r ∧ |∑ i ∈ Finset.range n, r i ^ 2 - 1| < 1 / 2 ^ 20 := by
  obtain ⟨r, hr, hb⟩ := C153_unit_partial (by omega) (hd.trans (by norm_num)) hq hs he hE hx hX h0
  refine ⟨r, hr, ?_⟩
  obtain ⟨j, hj, hj0⟩ := h0
  have hd0 : 0 ≤ d := by
    by_contra h
    have h1 := (hq 1 (by norm_num)).2
    nlinarith
  have hu0 : (0 : Rat) < 1 / 2 ^ f.p := by positivity
  have hu : (1 : Rat) / 2 ^ f.p ≤ 1 / 2 ^ 24 := by gcongr; norm_num
  have hN : 0 < ∑ i ∈ Finset.range n, x i ^ 2 :=
    Finset.sum_pos' (fun i _ => sq_nonneg _) ⟨j, Finset.mem_range.2 hj, by positivity⟩
  generalize (1 : Rat) / 2 ^ f.p = u at *
  have hS0 : 0 ≤ ∑ i ∈ Finset.range n, r i ^ 2 := Finset.sum_nonneg fun i _ => sq_nonneg _
  have h1 : (1 - u) ^ 2 * ∑ i ∈ Finset.range n, x i ^ 2 ≤
      (1 + d) ^ 2 * (1 + u) ^ n * ((∑ i ∈ Finset.range n, x i ^ 2) * ∑ i ∈ Finset.range n, r i ^ 2) := by
    rw [Finset.mul_sum, Finset.mul_sum (s := Finset.range n) (f := fun i => r i ^ 2), Finset.mul_sum]
    exact Finset.sum_le_sum fun i hi => (hb i (Finset.mem_range.1 hi)).2.1
  have h2 : (1 - d) ^ 2 * (2 - (1 + u) ^ n) * ((∑ i ∈ Finset.range n, x i ^ 2) * ∑ i ∈ Finset.range n, r i ^ 2) ≤
      (1 + u) ^ 2 * ∑ i ∈ Finset.range n, x i ^ 2 := by
    rw [Finset.mul_sum (s := Finset.range n) (f := fun i => r i ^ 2), Finset.mul_sum, Finset.mul_sum (f := fun i => x i ^ 2)]
    exact Finset.sum_le_sum fun i hi => (hb i (Finset.mem_range.1 hi)).2.2
  generalize ∑ i ∈ Finset.range n, x i ^ 2 = N at *
  generalize ∑ i ∈ Finset.range n, r i ^ 2 = S at *
  have hpow : (1 + u) ^ n ≤ (1 + 1 / 2 ^ 24) ^ 4 :=
    (pow_le_pow_right₀ (by linarith) hn).trans (pow_le_pow_left₀ (by linarith) (by linarith) 4)
  have hpow1 : 1 ≤ (1 + u) ^ n := one_le_pow₀ (by linarith)
  generalize (1 + u) ^ n = g at *
  have k1 : (1 - u) ^ 2 ≤ (1 + d) ^ 2 * g * S := by
    have : N * (1 - u) ^ 2 ≤ N * ((1 + d) ^ 2 * g * S) := by linarith
    exact le_of_mul_le_mul_left this hN
  have k2 : (1 - d) ^ 2 * (2 - g) * S ≤ (1 + u) ^ 2 := by
    have : N * ((1 - d) ^ 2 * (2 - g) * S) ≤ N * (1 + u) ^ 2 := by linarith
    exact le_of_mul_le_mul_left this hN
  have c1 : (1 + d) ^ 2 * g ≤ (1 + 1 / 2 ^ 24) ^ 2 * (1 + 1 / 2 ^ 24) ^ 4 := by gcongr
  have c2 : (1 - 1 / 2 ^ 24) ^ 2 ≤ (1 - u) ^ 2 := pow_le_pow_left₀ (by norm_num) (by linarith) 2
  have c3 : (1 - 1 / 2 ^ 24) ^ 2 * (2 - (1 + 1 / 2 ^ 24) ^ 4) ≤ (1 - d) ^ 2 * (2 - g) :=
    mul_le_mul (pow_le_pow_left₀ (by norm_num) (by linarith) 2) (by linarith) (by norm_num) (sq_nonneg _)
  have c4 : (1 + u) ^ 2 ≤ (1 + 1 / 2 ^ 24) ^ 2 := pow_le_pow_left₀ (by linarith) (by linarith) 2
  have k3 := c2.trans (k1.trans (mul_le_mul_of_nonneg_right c1 hS0))
  have k4 := (mul_le_mul_of_nonneg_right c3 hS0).trans (k2.trans c4)
  norm_num at k3 k4
  rw [abs_lt]
  constructor <;> norm_num <;> linarith

/-- A vector with a component whose square is out of range becomes zero. -/
theorem C153_long {f : Format} (hp : 1 ≤ f.p) (hf : f.emin ≤ f.emax) (root : Rat → Rat) {simd : Bool} {n : Nat} (hs : simd = true → n = 4)
    {x : Nat → Rat} (hx : ∃ i, i < n ∧ 2 ^ f.emax ≤ x i ^ 2) : Gives f root simd n x fun _ => 0 := by
  have h : sumSq f x n = .inf false := (sumSq_large hp hf n).2 (by simpa only [← sq] using hx)
  have hdiv : ∀ i, div f (.fin (x i)) (Ieee.sqrt root (sumSq f x n)) = .fin 0 := fun i => by rw [h]; rfl
  obtain ⟨⟨v, hv, hv'⟩, w, hw, hw'⟩ := unit_eq (f := f) (sq := root) hs x
  exact ⟨⟨v, hv, fun i hi => by rw [hv' i hi, hdiv i]⟩, w, hw, fun i hi => by rw [hw' i hi, hdiv i]⟩

/-- A vector of components whose squares are rounded to zero has no finite component afterwards. -/
theorem C153_short {f : Format} (hp : 1 ≤ f.p) {root : Rat → Rat} {d : Rat} (hq : IsSqrt d root) {simd : Bool} {n : Nat}
    (hs : simd = true → n = 4) {x : Nat → Rat} (hx : ∀ i, i < n → x i ^ 2 ≤ 2 ^ (f.emin - f.p)) :
    ∃ v, Vect.unit (ops f root) simd n (fun i => .fin (x i)) = .ok v ∧
      ∀ i, i < n → v i = if x i = 0 then .nan else .inf (decide (x i < 0)) := by
  have h : sumSq f x n = .fin 0 := sumSq_small hp n (by simpa only [← sq] using hx)
  have h0 : root 0 = 0 := by
    have h := hq 0 (le_refl _)
    rw [mul_zero] at h
    nlinarith [h.1, h.2.1, h.2.2]
  obtain ⟨⟨v, hv, hv'⟩, _⟩ := unit_eq (f := f) (sq := root) hs x
  refine ⟨v, hv, fun i hi => ?_⟩
  have e : Ieee.sqrt root (.fin 0) = .fin 0 := by
    show (if (0 : Rat) < 0 then F.nan else F.fin (root 0)) = _
    rw [if_neg (lt_irrefl _), h0]
  rw [hv' i hi, h, e]
  rfl

/-- There are such square roots. -/
example {d : Rat} (hd : 0 < d) (hd1 : d < 1) : ∃ root, IsSqrt d root := by
  have : ∀ x : Rat, ∃ y : Rat, 0 ≤ x → 0 ≤ y ∧ (1 - d) ^ 2 * x ≤ y ^ 2 ∧ y ^ 2 ≤ (1 + d) ^ 2 * x := fun x => by
    rcases lt_trichotomy 0 x with hx | rfl | hx
    · have hr : (0 : Real) < Real.sqrt x := Real.sqrt_pos.2 (by exact_mod_cast hx)
      have hd' : (0 : Real) < d := by exact_mod_cast hd
      have hd1' : (d : Real) < 1 := by exact_mod_cast hd1
      obtain ⟨y, h1, h2⟩ := exists_rat_btwn (show (1 - d : Real) * Real.sqrt x < (1 + d) * Real.sqrt x by nlinarith)
      have hs : Real.sqrt x ^ 2 = x := Real.sq_sqrt (by exact_mod_cast hx.le)
      have h0 : (0 : Real) ≤ (1 - d) * Real.sqrt x := mul_nonneg (by linarith) hr.le
      have k1 : (1 - d : Real) ^ 2 * x ≤ y ^ 2 := by
        rw [← hs, ← mul_pow]; exact pow_le_pow_left₀ h0 h1.le 2
      have k2 : (y : Real) ^ 2 ≤ (1 + d) ^ 2 * x := by
        rw [← hs, ← mul_pow]; exact pow_le_pow_left₀ (h0.trans h1.le) h2.le 2
      exact ⟨y, fun _ => ⟨by exact_mod_cast h0.trans h1.le, by exact_mod_cast k1, by exact_mod_cast k2⟩⟩
    · exact ⟨0, fun _ => by norm_num⟩
    · exact ⟨0, fun h => absurd hx (not_lt.2 h)⟩
  choose root h using this
  exact ⟨root, h⟩

/-- The bounds for `f32` and `f64`: vectors of two to four components from `2 ^ -60` to `2 ^ 60`, and `2 ^ -500` to `2 ^ 500`. -/
example : f32.emin ≤ -(2 * (60 : Nat) + (4 : Nat) + 1 : Int) ∧ (2 * (60 : Nat) + (4 : Nat) : Int) < f32.emax ∧
    f64.emin ≤ -(2 * (500 : Nat) + (4 : Nat) + 1 : Int) ∧ (2 * (500 : Nat) + (4 : Nat) : Int) < f64.emax := by decide

/-- In `f32` the unit vector of `(2 ^ 64, 1)` is zero, and that of `(2 ^ -75, 0)` is infinite and not a number. -/
example : 2 ^ f32.emax ≤ ((2 : Rat) ^ 64) ^ 2 ∧ ((1 : Rat) / 2 ^ 75) ^ 2 ≤ 2 ^ (f32.emin - f32.p) := by
  constructor <;> simp only [f32] <;> norm_num

/-- The unit vector of `(3, 4)` in `f32`. -/
example : (Vect.unit (ops f32 fun _ => 5) false 2 (fun i => if i = 0 then .fin 3 else .fin 4)).map (fun v => (v 0, v 1)) =
    .ok (.fin (10066330 / 2 ^ 24), .fin (13421773 / 2 ^ 24)) := by decide +kernel

end Rpp.Props
