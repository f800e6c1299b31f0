import Verif.Spec.Rounded
import Verif.Proof.Lerp
import Verif.Proof.Angle
import Mathlib.Tactic.Linarith
import Mathlib.Tactic.Positivity
import Mathlib.Tactic.GCongr
import Mathlib.Tactic.FinCases

/-! Forward errors of sums and products. -/

namespace Rpp.VMath
open Rpp.Angle Rpp.Lerp

/-- `r` is `s` after `n` roundings of terms of magnitude `m` together. -/
structure Near (p n : Nat) (r s m : Rat) : Prop where
  close : |r - s| ≤ err p n * m
  le : |s| ≤ m

variable {p n k : Nat} {r s m r' s' m' : Rat}

theorem u_pos (p : Nat) : (0 : Rat) < 1 / 2 ^ p := by positivity

theorem one_le (p n : Nat) : (1 : Rat) ≤ (1 + 1 / 2 ^ p) ^ n :=
  one_le_pow₀ (by linarith [u_pos p])

theorem err_nonneg (p n : Nat) : 0 ≤ err p n := by unfold err; linarith [one_le p n]

theorem err_mono (p : Nat) (h : n ≤ k) : err p n ≤ err p k := by
  unfold err
  have : (1 + 1 / 2 ^ p : Rat) ^ n ≤ (1 + 1 / 2 ^ p) ^ k := pow_le_pow_right₀ (by linarith [u_pos p]) h
  linarith

theorem Near.nonneg (h : Near p n r s m) : 0 ≤ m := (abs_nonneg _).trans h.le

theorem Near.exact (x : Rat) : Near p 0 x x |x| := ⟨by simp [err], le_refl _⟩

theorem Near.up (h : Near p n r s m) (hn : n ≤ k) : Near p k r s m :=
  ⟨h.close.trans (mul_le_mul_of_nonneg_right (err_mono p hn) h.nonneg), h.le⟩

theorem Near.cast (h : Near p n r s m) (hs : s = s') (hm : m = m') : Near p n r s' m' := hs ▸ hm ▸ h

/-- The magnitude of `r`. -/
theorem Near.abs_le (h : Near p n r s m) : |r| ≤ (1 + 1 / 2 ^ p) ^ n * m := by
  have h1 := h.close
  have h2 := h.le
  have h3 := abs_add_le (r - s) s
  rw [sub_add_cancel] at h3
  unfold err at h1
  nlinarith

/-- One more rounding. -/
theorem Near.round (h : Near p n r s m) : Near p (n + 1) (Angle.round p r) s m := by
  refine ⟨?_, h.le⟩
  have h1 := round_err p r
  have h2 := h.abs_le
  have h3 := abs_sub_le (Angle.round p r) r s
  have h4 := h.close
  unfold err at h4 ⊢
  have h5 : |r| / 2 ^ p ≤ (1 + 1 / 2 ^ p) ^ n * m * (1 / 2 ^ p) := by
    rw [div_eq_mul_one_div]; exact mul_le_mul_of_nonneg_right h2 (u_pos p).le
  rw [pow_succ]
  nlinarith

theorem Near.neg (h : Near p n r s m) : Near p n (-r) (-s) m :=
  ⟨by rw [show -r - -s = -(r - s) by ring, abs_neg]; exact h.close, by rw [abs_neg]; exact h.le⟩

theorem Near.plus (h : Near p n r s m) (h' : Near p n r' s' m') : Near p n (r + r') (s + s') (m + m') := by
  refine ⟨?_, (abs_add_le _ _).trans (add_le_add h.le h'.le)⟩
  have := abs_add_le (r - s) (r' - s')
  rw [show r + r' - (s + s') = (r - s) + (r' - s') by ring, mul_add]
  linarith [h.close, h'.close]

theorem Near.times (h : Near p n r s m) (h' : Near p k r' s' m') : Near p (n + k) (r * r') (s * s') (m * m') := by
  refine ⟨?_, by rw [abs_mul]; exact mul_le_mul h.le h'.le (abs_nonneg _) h.nonneg⟩
  rw [show r * r' - s * s' = (r - s) * r' + s * (r' - s') by ring]
  refine (abs_add_le _ _).trans ?_
  rw [abs_mul, abs_mul]
  have h1 : |r - s| * |r'| ≤ err p n * m * ((1 + 1 / 2 ^ p) ^ k * m') :=
    mul_le_mul h.close h'.abs_le (abs_nonneg _) (mul_nonneg (err_nonneg p n) h.nonneg)
  have h2 : |s| * |r' - s'| ≤ m * (err p k * m') := mul_le_mul h.le h'.close (abs_nonneg _) h.nonneg
  refine (add_le_add h1 h2).trans (le_of_eq ?_)
  unfold err
  rw [pow_add]
  ring

/-- The operations of `Fl`. -/
theorem Near.add {a b : Fl p} (h : Near p n a.val s m) (h' : Near p n b.val s' m') :
    Near p (n + 1) (a + b).val (s + s') (m + m') := (h.plus h').round

theorem Near.sub {a b : Fl p} (h : Near p n a.val s m) (h' : Near p n b.val s' m') :
    Near p (n + 1) (a - b).val (s - s') (m + m') := by
  have := (h.plus h'.neg).round
  rw [← sub_eq_add_neg, ← sub_eq_add_neg] at this
  exact this

theorem Near.mul {a b : Fl p} (h : Near p n a.val s m) (h' : Near p k b.val s' m') :
    Near p (n + k + 1) (a * b).val (s * s') (m * m') := (h.times h').round

theorem Near.prod (a b : Fl p) : Near p 1 (a * b).val (a.val * b.val) |a.val * b.val| :=
  ((Near.exact a.val).mul (Near.exact b.val)).cast rfl (abs_mul _ _).symm

theorem Near.prodC (a b : Fl p) : Near p 1 (a * b).val (b.val * a.val) |b.val * a.val| :=
  (Near.prod a b).cast (mul_comm _ _) (by rw [mul_comm])

/-- The sum of four as `Mat4` makes it. -/
theorem Near.four {a b c d : Fl p} {s1 s2 s3 s4 m1 m2 m3 m4 : Rat} (h1 : Near p n a.val s1 m1) (h2 : Near p n b.val s2 m2)
    (h3 : Near p n c.val s3 m3) (h4 : Near p n d.val s4 m4) :
    Near p (n + 2) ((a + b) + (c + d)).val (s1 + s2 + s3 + s4) (m1 + m2 + m3 + m4) :=
  ((h1.add h2).add (h3.add h4)).cast (by ring) (by ring)

theorem get_add {K : Type} [Add K] (a b : V4 K) (i : Nat) : (a.add b).get i = a.get i + b.get i := by
  rcases i with _ | _ | _ | i <;> rfl

theorem get_mul {K : Type} [Mul K] (a b : V4 K) (i : Nat) : (a.mul b).get i = a.get i * b.get i := by
  rcases i with _ | _ | _ | i <;> rfl

theorem get_set1 {K : Type} (s : K) (i : Nat) : (V4.set1 s).get i = s := by
  rcases i with _ | _ | _ | i <;> rfl

theorem col_ofCols {K : Type} (f : Nat → V4 K) (j : Fin 4) : (Mat4.ofCols f).col j = f j := by
  fin_cases j <;> rfl

theorem mul_entry (a b : Mat4 (Fl p)) (i j : Fin 4) : entry (a.mul b) i j =
    (((b.col j).get 0 * (a.col 0).get i + (b.col j).get 1 * (a.col 1).get i) +
      ((b.col j).get 2 * (a.col 2).get i + (b.col j).get 3 * (a.col 3).get i)).val := by
  unfold entry Mat4.mul
  rw [col_ofCols]
  simp only [get_add, get_mul, get_set1]

theorem mulV4_comp (a : Mat4 (Fl p)) (v : V4 (Fl p)) (i : Fin 4) : comp (a.mulV4 v) i =
    (((a.col 0).get i * v.x + (a.col 1).get i * v.y) + ((a.col 2).get i * v.z + (a.col 3).get i * v.w)).val := by
  unfold comp Mat4.mulV4
  simp only [get_add, get_mul, get_set1]

theorem mul_near {n k : Nat} {a b : Mat4 (Fl p)} {sa ma sb mb : Fin 4 → Fin 4 → Rat}
    (ha : ∀ i j, Near p n (entry a i j) (sa i j) (ma i j)) (hb : ∀ i j, Near p k (entry b i j) (sb i j) (mb i j)) (i j : Fin 4) :
    Near p (n + k + 3) (entry (a.mul b) i j) (∑ l, sa i l * sb l j) (∑ l, ma i l * mb l j) := by
  rw [mul_entry, Fin.sum_univ_four, Fin.sum_univ_four]
  have h : ∀ l : Fin 4, Near p (n + k + 1) ((b.col j).get l * (a.col l).get i).val (sa i l * sb l j) (ma i l * mb l j) :=
    fun l => ((Near.mul (hb l j) (ha i l)).up (by omega)).cast (mul_comm _ _) (mul_comm _ _)
  exact Near.four (h 0) (h 1) (h 2) (h 3)

theorem mulV4_near {n k : Nat} {a : Mat4 (Fl p)} {v : V4 (Fl p)} {sa ma : Fin 4 → Fin 4 → Rat} {sv mv : Fin 4 → Rat}
    (ha : ∀ i j, Near p n (entry a i j) (sa i j) (ma i j)) (hv : ∀ i, Near p k (comp v i) (sv i) (mv i)) (i : Fin 4) :
    Near p (n + k + 3) (comp (a.mulV4 v) i) (∑ l, sa i l * sv l) (∑ l, ma i l * mv l) := by
  rw [mulV4_comp, Fin.sum_univ_four, Fin.sum_univ_four]
  exact Near.four (Near.mul (ha i 0) (hv 0)) (Near.mul (ha i 1) (hv 1)) (Near.mul (ha i 2) (hv 2)) (Near.mul (ha i 3) (hv 3))

theorem near_exact (a : Mat4 (Fl p)) (i j : Fin 4) : Near p 0 (entry a i j) (entry a i j) |entry a i j| := Near.exact _

theorem near_exactV (v : V4 (Fl p)) (i : Fin 4) : Near p 0 (comp v i) (comp v i) |comp v i| := Near.exact _

/-- Products of quaternions whose components are near. -/
theorem qmul_near {n k : Nat} {q r : Quat (Fl p)} {Q R A B : Quat Rat}
    (hx : Near p n q.x.val Q.x A.x) (hy : Near p n q.y.val Q.y A.y) (hz : Near p n q.z.val Q.z A.z) (hw : Near p n q.w.val Q.w A.w)
    (hx' : Near p k r.x.val R.x B.x) (hy' : Near p k r.y.val R.y B.y) (hz' : Near p k r.z.val R.z B.z) (hw' : Near p k r.w.val R.w B.w) :
    Near p (n + k + 4) (q.mul r).x.val (Q.mul R).x (A.y * B.z + A.z * B.y + A.x * B.w + A.w * B.x) ∧
    Near p (n + k + 4) (q.mul r).y.val (Q.mul R).y (A.z * B.x + A.x * B.z + A.y * B.w + A.w * B.y) ∧
    Near p (n + k + 4) (q.mul r).z.val (Q.mul R).z (A.x * B.y + A.y * B.x + A.z * B.w + A.w * B.z) ∧
    Near p (n + k + 4) (q.mul r).w.val (Q.mul R).w (A.w * B.w + A.x * B.x + A.y * B.y + A.z * B.z) := by
  refine ⟨?_, ?_, ?_, ?_⟩
  · exact (((hy.mul hz').sub (hz.mul hy')).add ((hx.mul hw').up (by omega))).add ((hw.mul hx').up (by omega))
  · exact (((hz.mul hx').sub (hx.mul hz')).add ((hy.mul hw').up (by omega))).add ((hw.mul hy').up (by omega))
  · exact (((hx.mul hy').sub (hy.mul hx')).add ((hz.mul hw').up (by omega))).add ((hw.mul hz').up (by omega))
  · exact (((hw.mul hw').sub (hx.mul hx')).sub ((hy.mul hy').up (by omega))).sub ((hz.mul hz').up (by omega))

end Rpp.VMath
