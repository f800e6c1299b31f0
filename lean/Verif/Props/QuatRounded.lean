import Verif.Proof.QuatRounded
import Verif.Props.Rounded

/-!
# C175: the matrix of a quaternion with rounding
-/

namespace Rpp.Props
open Rpp.VMath Rpp.Spec

variable {p : Nat}

/-- **C175, entries.** Each entry of `to_mat` is off by two roundings of its terms, on the diagonal three; the last row and column
are exact. -/
theorem C175_entries {q : Quat (Fl p)} (hf : q.Floats) (i j : Fin 3) :
    |entry q.to_mat i.castSucc j.castSucc - ((exactQ q).to_mat.col j.castSucc).get i.castSucc| ≤
      err p (if i = j then 3 else 2) * rotTerms (exactQ q) i j ∧
    entry q.to_mat i.castSucc 3 = 0 ∧ entry q.to_mat 3 j.castSucc = 0 ∧ entry q.to_mat 3 3 = 1 := by
  refine ⟨(rot_near hf i j).close, ?_, ?_, rfl⟩
  · fin_cases i <;> rfl
  · fin_cases j <;> rfl

/-- In terms of the length: with `|q|² ≤ N` the terms are at most `N`, on the diagonal `1 + 2 N`. -/
theorem C175_terms (q : Quat Rat) {N : Rat} (h : q.norm2 ≤ N) (i j : Fin 3) :
    rotTerms q i j ≤ if i = j then 1 + 2 * N else N := by
  unfold Quat.norm2 at h
  have two : ∀ a b : Rat, 2 * |a * b| ≤ a * a + b * b := by
    intro a b
    rw [abs_mul]
    nlinarith [sq_nonneg (|a| - |b|), abs_mul_abs_self a, abs_mul_abs_self b]
  have := mul_self_nonneg q.x; have := mul_self_nonneg q.y; have := mul_self_nonneg q.z; have := mul_self_nonneg q.w
  have := two q.x q.y; have := two q.z q.w; have := two q.x q.z; have := two q.y q.w; have := two q.y q.z; have := two q.x q.w
  fin_cases i <;> fin_cases j <;> simp [rotTerms, -abs_mul] <;> nlinarith

/-- **C175, exact.** The conjugate has the transposed matrix, the negated quaternion the same matrix, and `Quat()` the unit
matrix, all without error. -/
theorem C175_exact (q : Quat (Fl p)) :
    q.conjugate.to_mat = q.to_mat.transpose ∧ q.neg.to_mat = q.to_mat ∧ (1 ≤ p → (Quat.one : Quat (Fl p)).to_mat = Mat4.I) := by
  refine ⟨?_, ?_, fun hp => ?_⟩
  · simp only [Quat.to_mat, Quat.conjugate, Mat4.transpose, Mat4.ofCols, Mat4.col, V4.get, mul_neg_fl, neg_mul_fl, neg_neg_fl,
      sub_neg_fl, add_neg_fl]
  · simp only [Quat.to_mat, Quat.neg, mul_neg_fl, neg_mul_fl, neg_neg_fl]
  · have h0 : ∀ a : Fl p, a * 0 = 0 := fun a => Fl.ext (by
      show Angle.round p (a.val * 0) = 0
      rw [mul_zero, Angle.round_zero])
    have h1 : (1 : Fl p) - 0 = 1 := Fl.ext (by
      show Angle.round p (1 - 0) = 1
      rw [sub_zero]
      exact Angle.round_float (Lerp.isFloat_one hp))
    have h2 : (0 : Fl p) + 0 = 0 := Fl.ext (by
      show Angle.round p (0 + 0) = 0
      rw [add_zero, Angle.round_zero])
    have h3 : (0 : Fl p) - 0 = 0 := Fl.ext (by
      show Angle.round p (0 - 0) = 0
      rw [sub_zero, Angle.round_zero])
    have h4 : ∀ a : Fl p, 0 * a = 0 := fun a => Fl.ext (by
      show Angle.round p (0 * a.val) = 0
      rw [zero_mul, Angle.round_zero])
    simp only [Quat.to_mat, Quat.one, Mat4.I, h0, h1, h2, h3, h4]

/-- In exact numbers turning by `q` is turning by its matrix and adding the vector times what the square of the length is above one. -/
theorem C175_both (q : Quat Rat) (v : V3 Rat) :
    q.rotate v = ⟨(q.to_mat.rotV3 v).x + (q.norm2 - 1) * v.x, (q.to_mat.rotV3 v).y + (q.norm2 - 1) * v.y,
      (q.to_mat.rotV3 v).z + (q.norm2 - 1) * v.z⟩ := by
  simp only [Quat.rotate, Quat.mul, Quat.conjugate, Quat.ofV3, Quat.complex, Quat.to_mat, Mat4.rotV3, Quat.norm2, V4.add, V4.mul, V4.set1,
    V4.xyz, Mat4.col, V3.mk.injEq]
  refine ⟨?_, ?_, ?_⟩ <;> ring

/-- **C175, the two ways to turn a vector.** Turning by `rotate` and by the matrix differ by no more than eight and six roundings of
their terms, and what the square of the length is off from one. -/
theorem C175_apply {q : Quat (Fl p)} (hf : q.Floats) (v : V3 (Fl p)) {M N : Rat}
    (hq : |q.x.val| ≤ M ∧ |q.y.val| ≤ M ∧ |q.z.val| ≤ M ∧ |q.w.val| ≤ M)
    (hv : |v.x.val| ≤ N ∧ |v.y.val| ≤ N ∧ |v.z.val| ≤ N) (i : Fin 3) :
    |comp3 (q.to_mat.rotV3 v) i - comp3 (q.rotate v) i| ≤
      err p 6 * ((1 + 12 * M ^ 2) * N) + err p 8 * (12 * M ^ 2 * N) + |(exactQ q).norm2 - 1| * N := by
  have hM : 0 ≤ M := (abs_nonneg _).trans hq.1
  have hN : 0 ≤ N := (abs_nonneg _).trans hv.1
  have near : ∀ {x B : Rat}, |x| ≤ B → Near p 0 x x B := fun h => ⟨by simp [err], h⟩
  have raise : ∀ {n : Nat} {r s m m' : Rat}, Near p n r s m → m ≤ m' → Near p n r s m' := fun h hm =>
    ⟨h.close.trans (mul_le_mul_of_nonneg_left hm (err_nonneg p _)), h.le.trans hm⟩
  have sq : ∀ {a : Rat}, |a| ≤ M → a ^ 2 ≤ M ^ 2 := by
    intro a ha
    have := abs_nonneg a
    rw [← sq_abs a]
    nlinarith
  have pr : ∀ {a b : Rat}, |a| ≤ M → |b| ≤ M → |a * b| ≤ M ^ 2 := by
    intro a b ha hb
    rw [abs_mul]
    nlinarith [abs_nonneg a, abs_nonneg b]
  obtain ⟨qx, qy, qz, qw⟩ := hq
  have sx := sq qx; have sy := sq qy; have sz := sq qz
  have xy := pr qx qy; have xz := pr qx qz; have yz := pr qy qz; have xw := pr qx qw; have yw := pr qy qw; have zw := pr qz qw
  have key : ∀ i j : Fin 3, Near p 3 (entry q.to_mat i.castSucc j.castSucc) (((exactQ q).to_mat.col j.castSucc).get i.castSucc)
      (if i = j then 1 + 4 * M ^ 2 else 4 * M ^ 2) := by
    intro i j
    refine raise ((rot_near hf i j).up (by split <;> omega)) ?_
    fin_cases i <;> fin_cases j <;> simp [rotTerms, exactQ, -abs_mul] <;> linarith
  have row : ∀ i : Fin 3, Near p 6 (comp3 (q.to_mat.rotV3 v) i)
      (∑ j : Fin 3, ((exactQ q).to_mat.col j.castSucc).get i.castSucc * comp3 v j) ((1 + 12 * M ^ 2) * N) := by
    intro i
    rw [Fin.sum_univ_three]
    have h := (((key i 0).mul (near hv.1)).add ((key i 1).mul (near hv.2.1))).add (((key i 2).mul (near hv.2.2)).up (by omega : 4 ≤ 5))
    fin_cases i <;> exact h.cast rfl (by simp; ring)
  have e := C175_both (exactQ q) (exactV v)
  obtain ⟨r1, r2, r3⟩ := C166_rotate q v ⟨qx, qy, qz, qw⟩ hv
  rw [e] at r1 r2 r3
  have fin : ∀ {A B R D x : Rat}, |A - R| ≤ err p 6 * ((1 + 12 * M ^ 2) * N) → |B - (R + D * x)| ≤ err p 8 * (12 * M ^ 2 * N) → |x| ≤ N →
      |A - B| ≤ err p 6 * ((1 + 12 * M ^ 2) * N) + err p 8 * (12 * M ^ 2 * N) + |D| * N := by
    intro A B R D x h1 h2 h3
    have h4 : |D * x| ≤ |D| * N := by rw [abs_mul]; exact mul_le_mul_of_nonneg_left h3 (abs_nonneg D)
    have e1 : A - B = (A - R) - (B - (R + D * x)) - D * x := by ring
    rw [e1]
    have := abs_sub ((A - R) - (B - (R + D * x))) (D * x)
    have := abs_sub (A - R) (B - (R + D * x))
    linarith
  have c := (row i).close
  rw [Fin.sum_univ_three] at c
  fin_cases i
  · exact fin c r1 hv.1
  · exact fin c r2 hv.2.1
  · exact fin c r3 hv.2.2

/-- **C175, the length.** No quaternion of floating point numbers has length one except for those whose components are 0, 1 and -1,
or all 1/2 or -1/2. So what is proved of quaternions of length one in exact numbers (C71) holds of these only, and the
last term of `C175_apply` is needed. -/
theorem C175_length {q : Quat (Fl p)} (hf : q.Floats) (h : (exactQ q).norm2 = 1) :
    ∀ t ∈ [q.x.val, q.y.val, q.z.val, q.w.val], t = 0 ∨ |t| = 1 ∨ |t| = 1 / 2 := by
  obtain ⟨hx, hy, hz, hw⟩ := hf
  obtain ⟨k1, s1⟩ := scaled hx
  obtain ⟨k2, s2⟩ := scaled hy
  obtain ⟨k3, s3⟩ := scaled hz
  obtain ⟨k4, s4⟩ := scaled hw
  obtain ⟨a, ha⟩ := s1 (k1 + k2 + k3 + k4) (by omega)
  obtain ⟨b, hb⟩ := s2 (k1 + k2 + k3 + k4) (by omega)
  obtain ⟨c, hc⟩ := s3 (k1 + k2 + k3 + k4) (by omega)
  obtain ⟨d, hd⟩ := s4 (k1 + k2 + k3 + k4) (by omega)
  generalize k1 + k2 + k3 + k4 = n at ha hb hc hd
  have hs : a * a + b * b + c * c + d * d = 4 ^ n := by
    have h4 : (4 : Rat) ^ n = 2 ^ n * 2 ^ n := by rw [← mul_pow]; norm_num
    have : ((a * a + b * b + c * c + d * d : Int) : Rat) = ((4 ^ n : Int) : Rat) := by
      push_cast
      rw [← ha, ← hb, ← hc, ← hd, h4]
      simp only [Quat.norm2, exactQ] at h
      linear_combination (2 ^ n * 2 ^ n) * h
    exact_mod_cast this
  have key := four_squares n a b c d hs
  have back : ∀ {x : Rat} {m : Int}, x * 2 ^ n = m → (m = 0 ∨ |m| = 2 ^ n ∨ 2 * |m| = 2 ^ n) → x = 0 ∨ |x| = 1 ∨ |x| = 1 / 2 := by
    intro x m hm hh
    have hp : (0 : Rat) < 2 ^ n := by positivity
    have ha : |x| * 2 ^ n = ((|m| : Int) : Rat) := by
      rw [Int.cast_abs, ← hm, abs_mul, abs_of_pos hp]
    rcases hh with h | h | h
    · left
      rw [h] at hm
      simpa [hp.ne'] using hm
    · right; left
      rw [h] at ha
      push_cast at ha
      exact mul_right_cancel₀ hp.ne' (by rw [ha, one_mul])
    · right; right
      have h2 : 2 * ((|m| : Int) : Rat) = 2 ^ n := by exact_mod_cast h
      rw [← ha] at h2
      exact mul_right_cancel₀ hp.ne' (by linarith)
  intro t ht
  simp only [List.mem_cons, List.not_mem_nil, or_false] at ht key
  rcases ht with rfl | rfl | rfl | rfl
  · exact back ha (key a (by simp))
  · exact back hb (key b (by simp))
  · exact back hc (key c (by simp))
  · exact back hd (key d (by simp))

/-- The quaternion of a turn by 120 degrees about (1, 1, 1): length one, and its matrix is exact. -/
example : let q : Quat (Fl 24) := ⟨⟨1 / 2⟩, ⟨1 / 2⟩, ⟨1 / 2⟩, ⟨1 / 2⟩⟩
    q.Floats ∧ (exactQ q).norm2 = 1 ∧ q.to_mat = ⟨⟨⟨0⟩, ⟨1⟩, ⟨0⟩, ⟨0⟩⟩, ⟨⟨0⟩, ⟨0⟩, ⟨1⟩, ⟨0⟩⟩, ⟨⟨1⟩, ⟨0⟩, ⟨0⟩, ⟨0⟩⟩, ⟨⟨0⟩, ⟨0⟩, ⟨0⟩, ⟨1⟩⟩⟩ := by
  refine ⟨⟨?_, ?_, ?_, ?_⟩, by norm_num [exactQ, Quat.norm2], by decide +kernel⟩ <;> exact ⟨1, -1, by norm_num, by norm_num⟩

/-- The quaternion of a turn by 90 degrees, rounded to `f32`: its length is not one, and the matrix has an entry that is not zero where
that of the turn has. -/
example : let q : Quat (Fl 24) := ⟨0, 0, ⟨11863283 / 2 ^ 24⟩, ⟨11863283 / 2 ^ 24⟩⟩
    q.Floats ∧ (exactQ q).norm2 ≠ 1 ∧ entry q.to_mat 0 0 ≠ 0 ∧ |entry q.to_mat 0 0| ≤ 1 / 2 ^ 23 := by
  refine ⟨⟨⟨0, 0, by norm_num, by norm_num; rfl⟩, ⟨0, 0, by norm_num, by norm_num; rfl⟩, ⟨11863283, -24, by norm_num, by norm_num⟩,
    ⟨11863283, -24, by norm_num, by norm_num⟩⟩, by decide +kernel, by decide +kernel, by decide +kernel⟩

end Rpp.Props
