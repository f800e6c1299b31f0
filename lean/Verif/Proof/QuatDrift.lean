import Verif.Spec.QuatDrift
import Verif.Props.Rounded
import Mathlib.Algebra.BigOperators.Group.List.Basic

/-! Lemmas about chains of products of quaternions. -/

namespace Rpp.VMath

variable {p : Nat}

theorem size2_nonneg (q : Quat Rat) : 0 ≤ size2 q := by unfold size2; positivity

theorem size2_mul (q r : Quat Rat) : size2 (q.mul r) = size2 q * size2 r := by
  unfold size2 Quat.mul
  ring

theorem drift_nonneg (p : Nat) : 0 ≤ drift p := by
  have := err_nonneg p 4
  unfold drift
  linarith

theorem drift_thousand : (1 + drift 24) ^ 1000 ≤ 1 + 1 / 2000 := by decide +kernel

theorem cauchy (a b c d a' b' c' d' : Rat) :
    (a * a' + b * b' + c * c' + d * d') ^ 2 ≤ (a ^ 2 + b ^ 2 + c ^ 2 + d ^ 2) * (a' ^ 2 + b' ^ 2 + c' ^ 2 + d' ^ 2) := by
  nlinarith [sq_nonneg (a * b' - b * a'), sq_nonneg (a * c' - c * a'), sq_nonneg (a * d' - d * a'), sq_nonneg (b * c' - c * b'),
    sq_nonneg (b * d' - d * b'), sq_nonneg (c * d' - d * c')]

/-- The triangle inequality, for squares. -/
theorem triangle {x y z w x' y' z' w' a b N : Rat} (ha : 0 ≤ a) (hb : 0 ≤ b) (hN : 0 ≤ N)
    (h : x ^ 2 + y ^ 2 + z ^ 2 + w ^ 2 ≤ a ^ 2 * N) (h' : x' ^ 2 + y' ^ 2 + z' ^ 2 + w' ^ 2 ≤ b ^ 2 * N) :
    (x + x') ^ 2 + (y + y') ^ 2 + (z + z') ^ 2 + (w + w') ^ 2 ≤ (a + b) ^ 2 * N ∧
    |x * x' + y * y' + z * z' + w * w'| ≤ a * b * N := by
  have hc := cauchy x y z w x' y' z' w'
  have hm : (x ^ 2 + y ^ 2 + z ^ 2 + w ^ 2) * (x' ^ 2 + y' ^ 2 + z' ^ 2 + w' ^ 2) ≤ a ^ 2 * N * (b ^ 2 * N) :=
    mul_le_mul h h' (by positivity) (by positivity)
  have hs : (x * x' + y * y' + z * z' + w * w') ^ 2 ≤ (a * b * N) ^ 2 := by
    refine (hc.trans hm).trans (le_of_eq ?_)
    ring
  have habs := abs_le_of_sq_le_sq hs (by positivity)
  refine ⟨?_, habs⟩
  have := (abs_le.1 habs).2
  nlinarith

/-- A sum of products of magnitudes is at most the product of the lengths. -/
theorem terms_le {e t d a b c f a' b' c' f' : Rat} (he : 0 ≤ e) (hd : |d| ≤ e * t)
    (ht : t = |a * a'| + |b * b'| + |c * c'| + |f * f'|) :
    d ^ 2 ≤ e ^ 2 * ((a ^ 2 + b ^ 2 + c ^ 2 + f ^ 2) * (a' ^ 2 + b' ^ 2 + c' ^ 2 + f' ^ 2)) := by
  have hc := cauchy |a| |b| |c| |f| |a'| |b'| |c'| |f'|
  simp only [sq_abs, ← abs_mul] at hc
  rw [← ht] at hc
  have h1 : d ^ 2 ≤ (e * t) ^ 2 := by
    rw [← sq_abs d]
    exact pow_le_pow_left₀ (abs_nonneg _) hd 2
  rw [mul_pow] at h1
  exact h1.trans (mul_le_mul_of_nonneg_left hc (by positivity))

/-- One rounded product. -/
theorem mul_dist (q r : Quat (Fl p)) :
    dist2 (exactQ (q.mul r)) ((exactQ q).mul (exactQ r)) ≤ drift p ^ 2 * (size2 (exactQ q) * size2 (exactQ r)) := by
  obtain ⟨h1, h2, h3, h4⟩ := Props.C166_quat q r
  have he := err_nonneg p 4
  have g1 := terms_le he h1 rfl
  have g2 := terms_le he h2 rfl
  have g3 := terms_le he h3 rfl
  have g4 := terms_le he h4 rfl
  unfold dist2 size2 drift
  simp only [exactQ] at g1 g2 g3 g4 ⊢
  nlinarith

/-- A chain of products. -/
theorem chain_dist : ∀ (qs : List (Quat (Fl p))) (b : Quat (Fl p)) (a : Quat Rat) (c : Rat), 0 ≤ c → dist2 (exactQ b) a ≤ c ^ 2 * size2 a →
    let N := size2 a * (qs.map fun q => size2 (exactQ q)).prod
    dist2 (exactQ (qs.foldl Quat.mul b)) ((qs.map exactQ).foldl Quat.mul a) ≤ ((1 + c) * (1 + drift p) ^ qs.length - 1) ^ 2 * N ∧
    size2 ((qs.map exactQ).foldl Quat.mul a) = N := by
  intro qs
  induction qs with
  | nil =>
    intro b a c hc h
    refine ⟨?_, by simp⟩
    simpa using h
  | cons r qs ih =>
    intro b a c hc h
    have hdr := drift_nonneg p
    have ha := size2_nonneg a
    have hr := size2_nonneg (exactQ r)
    have hb : size2 (exactQ b) ≤ (c + 1) ^ 2 * size2 a := by
      have := (triangle (x := (exactQ b).x - a.x) (y := (exactQ b).y - a.y) (z := (exactQ b).z - a.z) (w := (exactQ b).w - a.w)
        (x' := a.x) (y' := a.y) (z' := a.z) (w' := a.w) hc zero_le_one ha h (by unfold size2; linarith)).1
      simpa [size2] using this
    have hm := mul_dist b r
    have h1 : dist2 (exactQ (b.mul r)) ((exactQ b).mul (exactQ r)) ≤ (drift p * (c + 1)) ^ 2 * (size2 a * size2 (exactQ r)) := by
      refine hm.trans ?_
      have := mul_le_mul_of_nonneg_left (mul_le_mul_of_nonneg_right hb hr) (sq_nonneg (drift p))
      refine this.trans (le_of_eq ?_)
      ring
    have h2 : dist2 ((exactQ b).mul (exactQ r)) (a.mul (exactQ r)) ≤ c ^ 2 * (size2 a * size2 (exactQ r)) := by
      have e : dist2 ((exactQ b).mul (exactQ r)) (a.mul (exactQ r)) = dist2 (exactQ b) a * size2 (exactQ r) := by
        unfold dist2 size2 Quat.mul
        ring
      rw [e]
      refine (mul_le_mul_of_nonneg_right h hr).trans (le_of_eq ?_)
      ring
    have h3 : dist2 (exactQ (b.mul r)) (a.mul (exactQ r)) ≤ (drift p * (c + 1) + c) ^ 2 * size2 (a.mul (exactQ r)) := by
      have := (triangle (by positivity) hc (mul_nonneg ha hr) h1 h2).1
      rw [size2_mul]
      simpa [dist2] using this
    obtain ⟨i1, i2⟩ := ih (b.mul r) (a.mul (exactQ r)) (drift p * (c + 1) + c) (by positivity) h3
    simp only [List.foldl_cons, List.map_cons, List.prod_cons, List.length_cons]
    rw [size2_mul] at i1 i2
    refine ⟨i1.trans (le_of_eq ?_), by rw [i2]; ring⟩
    ring

end Rpp.VMath
