import Verif.Proof.Lerp

/-!
# C148, C149, C150: interpolation

Numbers of a type with `p` bits: 24 for `f32`, 53 for `f64`.
-/

namespace Rpp.Props
open Rpp.Lerp Rpp.Spec
open Rpp.Angle (round_mono round_float round_err sterbenz round_neg)

/-! ## C148: `lerp`

Full statement: `lerp(a, b, t)` is `a` for `t = 0` and `b` for `t = 1`, for `t` in between it is between `a` and `b`, and it moves from `a`
towards `b` as `t` grows. The second and the third are false of the code (`C148_false`). -/

/-- At 0 it is the start, and between equal ends it is that number. -/
theorem C148_start (fused : Bool) {p : Nat} {a : Rat} (ha : IsFloat p a) (b t : Rat) :
    lerp fused p a b 0 = a ∧ lerp fused p a a t = a := by
  unfold lerp
  cases fused <;> simp [round_float ha]

/-- It moves towards the end. -/
theorem C148_moves (fused : Bool) {p : Nat} (hp : 1 ≤ p) (a b : Rat) {t t' : Rat} (ht : t ≤ t') :
    (a ≤ b → lerp fused p a b t ≤ lerp fused p a b t') ∧ (b ≤ a → lerp fused p a b t' ≤ lerp fused p a b t) := by
  have z : Angle.round p 0 = 0 := Angle.round_zero p
  unfold lerp
  refine ⟨fun h => ?_, fun h => ?_⟩
  · have hd : 0 ≤ Angle.round p (b - a) := by rw [← z]; exact round_mono hp (by linarith)
    have hm := mul_le_mul_of_nonneg_left ht hd
    cases fused
    · exact round_mono hp (add_le_add le_rfl (round_mono hp hm))
    · exact round_mono hp (add_le_add le_rfl hm)
  · have hd : Angle.round p (b - a) ≤ 0 := by rw [← z]; exact round_mono hp (by linarith)
    have hm := mul_le_mul_of_nonpos_left ht hd
    cases fused
    · exact round_mono hp (add_le_add le_rfl (round_mono hp hm))
    · exact round_mono hp (add_le_add le_rfl hm)

/-- **C148, partial.** If the ends are within a factor of two of each other, or their difference is a number of the type at all, then at 1
it is the end, and in between it is between. Missing: ends further apart. -/
theorem C148_end_partial (fused : Bool) {p : Nat} (hp : 1 ≤ p) {a b : Rat} (ha : IsFloat p a) (hb : IsFloat p b)
    (h : IsFloat p (b - a) ∨ (a / 2 ≤ b ∧ b ≤ 2 * a) ∨ (2 * a ≤ b ∧ b ≤ a / 2)) :
    lerp fused p a b 1 = b ∧
    ∀ t, 0 ≤ t → t ≤ 1 → min a b ≤ lerp fused p a b t ∧ lerp fused p a b t ≤ max a b := by
  have hd : IsFloat p (b - a) := by
    rcases h with h | ⟨h1, h2⟩ | ⟨h1, h2⟩
    · exact h
    · exact sterbenz ha hb h1 h2
    · have := isFloat_neg (sterbenz (isFloat_neg ha) (isFloat_neg hb) (by linarith) (by linarith))
      rwa [show -(-b - -a) = b - a by ring] at this
  have h1 : lerp fused p a b 1 = b := by
    unfold lerp
    rw [round_float hd]
    cases fused <;> simp [round_float hd, round_float hb]
  refine ⟨h1, fun t t0 t1 => ?_⟩
  have m0 := C148_moves fused hp a b t0
  have m1 := C148_moves fused hp a b t1
  rw [(C148_start fused ha b 0).1] at m0
  rw [h1] at m1
  rcases le_total a b with hab | hab
  · rw [min_eq_left hab, max_eq_right hab]
    exact ⟨m0.1 hab, m1.1 hab⟩
  · rw [min_eq_right hab, max_eq_left hab]
    exact ⟨m1.2 hab, m0.2 hab⟩

/-- Whatever the ends, the error is at most one rounding of the result and three of the way from start to end. -/
theorem C148_error (fused : Bool) {p : Nat} (hp : 2 ≤ p) (a b t : Rat) :
    |lerp fused p a b t - ((1 - t) * a + t * b)| ≤ |(1 - t) * a + t * b| / 2 ^ p + 3 * (|b - a| * |t|) / 2 ^ p := by
  have hu : (0 : Rat) < 1 / 2 ^ p := by positivity
  have hu1 : (1 : Rat) / 2 ^ p ≤ 1 / 4 := by
    have : (2 : Rat) ^ 2 ≤ 2 ^ p := pow_le_pow_right₀ (by norm_num) hp
    rw [div_le_div_iff₀ (by positivity) (by norm_num)]
    linarith
  have err (x : Rat) : |Angle.round p x - x| ≤ |x| * (1 / 2 ^ p) := (round_err p x).trans (le_of_eq (by ring))
  rw [show |(1 - t) * a + t * b| / 2 ^ p + 3 * (|b - a| * |t|) / 2 ^ p =
    |(1 - t) * a + t * b| * (1 / 2 ^ p) + 3 * (|b - a| * |t|) * (1 / 2 ^ p) by ring]
  -- the product, rounded or not
  have key (y : Rat) (hy : |y - (b - a) * t| ≤ |b - a| * |t| * ((1 / 2 ^ p) * (2 + 1 / 2 ^ p))) :
      |Angle.round p (a + y) - ((1 - t) * a + t * b)| ≤
        |(1 - t) * a + t * b| * (1 / 2 ^ p) + 3 * (|b - a| * |t|) * (1 / 2 ^ p) := by
    have e1 := err (a + y)
    have e2 : a + y - ((1 - t) * a + t * b) = y - (b - a) * t := by ring
    have e3 := abs_sub_le (Angle.round p (a + y)) (a + y) ((1 - t) * a + t * b)
    have e4 := abs_sub_le (a + y) ((1 - t) * a + t * b) 0
    rw [sub_zero, sub_zero] at e4
    rw [e2] at e3 e4
    have hw : 0 ≤ |b - a| * |t| := by positivity
    generalize |b - a| * |t| = w at *
    generalize |(1 - t) * a + t * b| = x at *
    generalize (1 : Rat) / 2 ^ p = u at *
    have e5 : |a + y| * u ≤ (w * (u * (2 + u)) + x) * u := by
      gcongr
      linarith
    have e6 : w * u * ((2 + u) * (1 + u)) ≤ w * u * 3 :=
      mul_le_mul_of_nonneg_left (by nlinarith) (mul_nonneg hw hu.le)
    linarith
  have d1 := err (b - a)
  have d2 : |Angle.round p (b - a) * t - (b - a) * t| ≤ |b - a| * |t| * (1 / 2 ^ p) := by
    rw [← sub_mul, abs_mul]
    calc _ ≤ |b - a| * (1 / 2 ^ p) * |t| := by gcongr
      _ = _ := by ring
  have hw : 0 ≤ |b - a| * |t| := by positivity
  unfold lerp
  cases fused
  · refine key _ ?_
    have d3 := err (Angle.round p (b - a) * t)
    have d4 := abs_sub_le (Angle.round p (Angle.round p (b - a) * t)) (Angle.round p (b - a) * t) ((b - a) * t)
    have d5 := abs_sub_le (Angle.round p (b - a) * t) ((b - a) * t) 0
    rw [sub_zero, sub_zero, abs_mul (b - a) t] at d5
    generalize |b - a| * |t| = w at *
    generalize (1 : Rat) / 2 ^ p = u at *
    have d6 : |Angle.round p (b - a) * t| * u ≤ (w * u + w) * u := by gcongr; linarith
    nlinarith
  · refine key _ (d2.trans ?_)
    gcongr
    nlinarith

/-- The vector version does this to each component. -/
theorem C148_vector {p : Nat} {simd : Bool} {n : Nat} (hs : simd = true → n = 4) (a b : Nat → Rat) (t : Rat) :
    Componentwise n (fun i => .ok (lerp false p (a i) (b i) t)) (Vect.lerp (ops p) simd n a b t) := by
  cases simd with
  | true =>
    rw [hs rfl]
    refine ⟨fun r hr i hi => ?_, fun _ => ⟨_, rfl⟩⟩
    simp only [Vect.lerp, Vect.binV, Vect.binS, Vect.lanes2, Vect.Ops.app, Vect.set1, ops, if_true, bind, Except.bind, pure,
      Except.pure, Except.ok.injEq] at hr
    subst hr
    match i, hi with
    | 0, _ => rfl
    | 1, _ => rfl
    | 2, _ => rfl
    | 3, _ => rfl
  | false =>
    have hV (op : Vect.Op) (hop : op ≠ .div) (v w : Nat → Rat) : ∃ r, Vect.binV (ops p) false n op v w = .ok r ∧
        ∀ i, i < n → (ops p).app op (v i) (w i) = .ok (r i) := by
      have h : Componentwise n (fun i => (ops p).app op (v i) (w i)) (Vect.binV (ops p) false n op v w) := Vect.cw_set
      obtain ⟨r, hr⟩ := h.2 fun i _ => by cases op <;> first | exact ⟨_, rfl⟩ | exact absurd rfl hop
      exact ⟨r, hr, h.1 r hr⟩
    have hS (v : Nat → Rat) : ∃ r, Vect.binS (ops p) false n .mul v t = .ok r ∧
        ∀ i, i < n → (ops p).app .mul (v i) t = .ok (r i) := by
      have h : Componentwise n (fun i => (ops p).app .mul (v i) t) (Vect.binS (ops p) false n .mul v t) := Vect.cw_set
      obtain ⟨r, hr⟩ := h.2 fun i _ => ⟨_, rfl⟩
      exact ⟨r, hr, h.1 r hr⟩
    obtain ⟨d, h1, e1⟩ := hV .sub (by decide) b a
    obtain ⟨e, h2, e2⟩ := hS d
    obtain ⟨r, h3, e3⟩ := hV .add (by decide) a e
    unfold Vect.lerp
    simp only [h1, h2, h3, bind, Except.bind]
    refine ⟨fun r' hr i hi => ?_, fun _ => ⟨_, rfl⟩⟩
    cases hr
    have f1 := e1 i hi
    have f2 := e2 i hi
    have f3 := e3 i hi
    simp only [Vect.Ops.app, ops, Except.ok.injEq] at f1 f2 f3
    show (.ok (lerp false p (a i) (b i) t) : Res Rat) = _
    rw [← f3, ← f2, ← f1]
    rfl

/-- **C148 is false of the code:** from `10^8` to 1 it ends at 0, and from -2987334 to 45/64 it ends beyond, at 3/4; fused or not. -/
theorem C148_false (fused : Bool) : lerp fused 24 (10 ^ 8) 1 1 = 0 ∧ lerp fused 24 (-2987334) (45 / 64) 1 = 3 / 4 := by
  cases fused <;> decide +kernel

/-- These ends are numbers of the type. -/
example : IsFloat 24 (10 ^ 8) ∧ IsFloat 24 1 ∧ IsFloat 24 (-2987334) ∧ IsFloat 24 (45 / 64) :=
  ⟨⟨5 ^ 8, 8, by decide, by norm_num⟩, ⟨1, 0, by decide, by norm_num⟩, ⟨-2987334, 0, by decide, by norm_num⟩,
    ⟨45, -6, by decide, by norm_num⟩⟩

/-- A tenth of the way from 2 to 3 in `f32`, with the tenth of `f32`. -/
example : lerp false 24 2 3 (Angle.round 24 (1 / 10)) = Angle.round 24 (21 / 10) ∧ lerp true 24 2 3 1 = 3 := by decide +kernel

/-! ## C149: `smoothstep`

Full statement: `smoothstep(e0, e1, x)` is 0 up to `e0`, 1 from `e1` on, between them in between, and it rises with `x`. The last is false
of the code (`C149_false`). -/

/-- It is between 0 and 1, whatever the edges. -/
theorem C149_range {p : Nat} (hp : 2 ≤ p) (e0 e1 x : Rat) : 0 ≤ smoothstep p e0 e1 x ∧ smoothstep p e0 e1 x ≤ 1 := by
  obtain ⟨h1, h2, h3⟩ := ramp_props (p := p) (by omega) (Angle.round p (x - e0)) (Angle.round p (e1 - e0))
  refine ⟨?_, cubic_le_one hp h1 h2 h3⟩
  unfold smoothstep cubic
  refine Angle.round_nonneg p (mul_nonneg (Angle.round_nonneg p (mul_nonneg h2 h2)) (Angle.round_nonneg p ?_))
  have := round_float (isFloat_two_mul h1)
  rw [this]
  linarith

/-- Outside of the edges it is 0 and 1, also if they are the wrong way round. Equal edges make a step. -/
theorem C149_edges_partial {p : Nat} (hp : 2 ≤ p) (e0 e1 x : Rat) :
    (e0 ≤ e1 → x ≤ e0 → smoothstep p e0 e1 x = 0) ∧ (e0 < e1 → e1 ≤ x → smoothstep p e0 e1 x = 1) ∧
    (e1 < e0 → e0 ≤ x → smoothstep p e0 e1 x = 0) ∧ (e1 < e0 → x ≤ e1 → smoothstep p e0 e1 x = 1) ∧
    (e1 = e0 → e0 < x → smoothstep p e0 e1 x = 1) := by
  have hp1 : 1 ≤ p := by omega
  have z : Angle.round p 0 = 0 := Angle.round_zero p
  have le0 {y : Rat} (hy : y ≤ 0) : Angle.round p y ≤ 0 := by rw [← z]; exact round_mono hp1 hy
  have ge0 {y : Rat} (hy : 0 ≤ y) : 0 ≤ Angle.round p y := by rw [← z]; exact round_mono hp1 hy
  have ge1 {y : Rat} (hy : 1 ≤ y) : 1 ≤ Angle.round p y := by rw [← round_one hp1]; exact round_mono hp1 hy
  have lt0 {y : Rat} (hy : y < 0) : Angle.round p y < 0 := by
    have := round_pos hp1 (neg_pos.2 hy)
    rw [round_neg] at this
    linarith
  have zero {a b : Rat} (h : ramp p a b = 0) : cubic p (ramp p a b) = 0 := by rw [h, cubic_zero]
  have one {a b : Rat} (h : ramp p a b = 1) : cubic p (ramp p a b) = 1 := by rw [h, cubic_one hp]
  unfold smoothstep
  refine ⟨fun h hx => zero ?_, fun h hx => one ?_, fun h hx => zero ?_, fun h hx => one ?_, fun h hx => one ?_⟩
  · have hn := le0 (show x - e0 ≤ 0 by linarith)
    have hd := ge0 (show 0 ≤ e1 - e0 by linarith)
    unfold ramp
    split
    · rw [if_neg (by linarith)]
    · rw [clamp_cases, if_pos (le0 (div_nonpos_of_nonpos_of_nonneg hn hd))]
  · have hd := round_pos hp1 (show 0 < e1 - e0 by linarith)
    have hn := round_mono hp1 (show e1 - e0 ≤ x - e0 by linarith)
    unfold ramp
    have := ge1 ((one_le_div hd).2 hn)
    rw [if_neg hd.ne', clamp_cases, if_neg (by linarith), if_pos this]
  · have hd := lt0 (show e1 - e0 < 0 by linarith)
    have hn := ge0 (show 0 ≤ x - e0 by linarith)
    unfold ramp
    rw [if_neg hd.ne, clamp_cases, if_pos (le0 (div_nonpos_of_nonneg_of_nonpos hn hd.le))]
  · have hd := lt0 (show e1 - e0 < 0 by linarith)
    have hn := round_mono hp1 (show x - e0 ≤ e1 - e0 by linarith)
    unfold ramp
    have := ge1 ((one_le_div_of_neg hd).2 hn)
    rw [if_neg hd.ne, clamp_cases, if_neg (by linarith), if_pos this]
  · have hn := round_pos hp1 (show 0 < x - e0 by linarith)
    unfold ramp
    rw [h, sub_self, z, if_pos rfl, if_pos hn]

/-- **C149 is false of the code:** from one number of the type to the next it falls. -/
theorem C149_false : smoothstep 24 0 1 (13809330 / 2 ^ 24) < smoothstep 24 0 1 (13809329 / 2 ^ 24) := by decide +kernel

/-- A quarter of the way. -/
example : smoothstep 24 2 6 3 = 5 / 32 := by decide +kernel

/-! ## C150: `frac`

Full statement: `frac(x)` is the fractional part of `x`: the number from 0 to below 1 by which `x` exceeds an integer. False for negative
numbers, and undefined from `2^63` on (`C150_false`, `C150_undefined`). -/

/-- **C150, partial.** For numbers below `2^63` in magnitude the difference is exact: what is left is less than one, an integer is missing,
and the sign is that of `x`. For numbers from 0 on this is the property. -/
theorem C150_part_partial {p : Nat} {x : Rat} (hf : IsFloat p x) (h1 : -2 ^ 63 < x) (h2 : x < 2 ^ 63) :
    ∃ r, frac p x = .ok r ∧ |r| < 1 ∧ (∃ k : Int, x = k + r) ∧ (0 ≤ x → 0 ≤ r) ∧ (x ≤ 0 → r ≤ 0) := by
  obtain ⟨k, hk, hk1, hk2, hk3⟩ : ∃ k : Int, toI64 x = .ok k ∧ |x - k| < 1 ∧ (0 ≤ x → 0 ≤ (k : Rat) ∧ (k : Rat) ≤ x) ∧
      (x ≤ 0 → (k : Rat) ≤ 0 ∧ x ≤ k) := by
    unfold toI64
    dsimp only
    by_cases hx : x < 0
    · have a1 := Int.le_ceil x
      have a2 := Int.ceil_lt_add_one x
      have a3 : ⌈x⌉ ≤ 0 := Int.ceil_le.2 (by push_cast; linarith)
      have a3' : ((⌈x⌉ : Int) : Rat) ≤ 0 := by exact_mod_cast a3
      have a4 : -2 ^ 63 ≤ ⌈x⌉ := by
        have : (-2 ^ 63 : Rat) ≤ (⌈x⌉ : Int) := by linarith
        exact_mod_cast this
      rw [if_pos hx, if_pos ⟨a4, by omega⟩]
      exact ⟨_, rfl, by rw [abs_lt]; constructor <;> linarith, fun h => absurd hx (not_lt.2 h), fun _ => ⟨a3', a1⟩⟩
    · have a0 := not_lt.1 hx
      have a1 := Int.floor_le x
      have a2 := Int.lt_floor_add_one x
      have a3 : 0 ≤ ⌊x⌋ := Int.floor_nonneg.2 a0
      have a3' : (0 : Rat) ≤ (⌊x⌋ : Int) := by exact_mod_cast a3
      have a4 : ⌊x⌋ < 2 ^ 63 := by
        have : ((⌊x⌋ : Int) : Rat) < 2 ^ 63 := by linarith
        exact_mod_cast this
      rw [if_neg hx, if_pos ⟨by omega, a4⟩]
      refine ⟨_, rfl, by rw [abs_lt]; constructor <;> linarith, fun _ => ⟨a3', a1⟩, fun h => ?_⟩
      have : x = 0 := le_antisymm h a0
      simp [this]
  have hsm : |(k : Rat)| ≤ |x| ∧ |x - k| ≤ |x| := by
    rcases le_total 0 x with h | h
    · obtain ⟨b1, b2⟩ := hk2 h
      rw [abs_of_nonneg b1, abs_of_nonneg h, abs_of_nonneg (by linarith)]
      constructor <;> linarith
    · obtain ⟨b1, b2⟩ := hk3 h
      rw [abs_of_nonpos b1, abs_of_nonpos h, abs_of_nonpos (by linarith)]
      constructor <;> linarith
  have hfk : IsFloat p (k : Rat) ∧ IsFloat p (x - k) := by
    obtain ⟨m, e, hm, rfl⟩ := hf
    rcases le_or_gt 0 e with he | he
    · -- an integer
      have hz : (m : Rat) * 2 ^ e - k = 0 := by
        have e1 : (m : Rat) * 2 ^ e - k = ((m * 2 ^ e.toNat - k : Int) : Rat) := by
          push_cast
          rw [← zpow_natCast, Int.toNat_of_nonneg he]
        rw [e1] at hk1 ⊢
        have : |m * 2 ^ e.toNat - k| < 1 := by exact_mod_cast hk1
        have : m * 2 ^ e.toNat - k = 0 := by
          rw [abs_lt] at this
          omega
        rw [this]
        rfl
      refine ⟨⟨m, e, hm, by linarith⟩, ?_⟩
      rw [hz]
      exact ⟨0, 0, by simp, by simp⟩
    · have hpow : (2 : Rat) ^ e ≤ 1 := zpow_le_one_of_nonpos₀ (by norm_num) he.le
      have hpos : (0 : Rat) < 2 ^ e := by positivity
      have hxm : |(m : Rat) * 2 ^ e| = |(m : Rat)| * 2 ^ e := by rw [abs_mul, abs_of_pos hpos]
      rw [hxm] at hsm
      constructor
      · refine ⟨k, 0, ?_, by simp⟩
        have : |(k : Rat)| ≤ |(m : Rat)| := hsm.1.trans (mul_le_of_le_one_right (abs_nonneg _) hpow)
        have : |k| ≤ |m| := by exact_mod_cast this
        omega
      · have e1 : (m : Rat) * 2 ^ e - k = ((m - k * 2 ^ (-e).toNat : Int) : Rat) * 2 ^ e := by
          push_cast
          rw [sub_mul, mul_assoc, ← zpow_natCast, ← zpow_add₀ (by norm_num), Int.toNat_of_nonneg (by omega)]
          simp
        refine ⟨_, e, ?_, e1⟩
        have h3 := hsm.2
        rw [e1, abs_mul, abs_of_pos hpos] at h3
        have h4 := le_of_mul_le_mul_right h3 hpos
        have : |m - k * 2 ^ (-e).toNat| ≤ |m| := by exact_mod_cast h4
        omega
  refine ⟨x - k, ?_, hk1, ⟨k, by ring⟩, fun h => by linarith [(hk2 h).2], fun h => by linarith [(hk3 h).2]⟩
  unfold frac
  rw [hk]
  show Except.ok (Angle.round p (x - Angle.round p k)) = _
  rw [round_float hfk.1, round_float hfk.2]

/-- **C150 is false of the code** for every negative number that is no integer: the result is below 0. -/
theorem C150_false {p : Nat} {x : Rat} (hf : IsFloat p x) (h1 : -2 ^ 63 < x) (h2 : x < 0) (hi : ∀ k : Int, x ≠ k) :
    ∃ r, frac p x = .ok r ∧ r < 0 := by
  obtain ⟨r, h3, -, ⟨k, h4⟩, -, h5⟩ := C150_part_partial hf h1 (by linarith)
  refine ⟨r, h3, lt_of_le_of_ne (h5 h2.le) fun h => hi k ?_⟩
  rw [h4, h, add_zero]

/-- From `2^63` on it is undefined. -/
theorem C150_undefined (p : Nat) {x : Rat} (h : 2 ^ 63 ≤ x ∨ x ≤ -2 ^ 63 - 1) : frac p x = .error .ub := by
  have : toI64 x = .error .ub := by
    unfold toI64
    dsimp only
    rcases h with h | h
    · rw [if_neg (by linarith : ¬x < 0), if_neg]
      have : (2 ^ 63 : Int) ≤ ⌊x⌋ := Int.le_floor.2 (by push_cast; linarith)
      omega
    · rw [if_pos (by linarith : x < 0), if_neg]
      have : ⌈x⌉ ≤ (-2 ^ 63 - 1 : Int) := Int.ceil_le.2 (by push_cast; linarith)
      omega
  unfold frac
  rw [this]
  rfl

/-- 3.25, -3.25 and the first number too large. -/
example : frac 24 (13 / 4) = .ok (1 / 4) ∧ frac 24 (-13 / 4) = .ok (-1 / 4) ∧ frac 24 (2 ^ 63) = .error .ub := by decide +kernel

end Rpp.Props
