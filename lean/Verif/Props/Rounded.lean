import Verif.Proof.Rounded
import Verif.Props.Quat
import Mathlib.LinearAlgebra.Matrix.Determinant.Basic

/-!
# C166: the accuracy of products of matrices, vectors and quaternions
-/

namespace Rpp.Props
open Rpp.VMath Rpp.Spec

variable {p : Nat}

/-- **C166** for matrices: the error of an entry of a product, and of a component of a product with a vector, is that of three roundings of
terms with the magnitudes of the terms of the sum. -/
theorem C166_matrix (a b : Mat4 (Fl p)) (v : V4 (Fl p)) (i j : Fin 4) :
    |entry (a.mul b) i j - ∑ k, entry a i k * entry b k j| ≤ err p 3 * ∑ k, |entry a i k * entry b k j| ∧
    |comp (a.mulV4 v) i - ∑ k, entry a i k * comp v k| ≤ err p 3 * ∑ k, |entry a i k * comp v k| := by
  simp only [abs_mul]
  exact ⟨(mul_near (near_exact a) (near_exact b) i j).close, (mulV4_near (near_exact a) (near_exactV v) i).close⟩

/-- Points and directions, with the terms of the product with `(v, 1)` and `(v, 0)`. -/
theorem C166_points (a : Mat4 (Fl p)) (v : V3 (Fl p)) (i : Fin 3) :
    |comp3 (a.mulV3 v) i - (∑ k : Fin 3, entry a i.castSucc k.castSucc * comp3 v k + entry a i.castSucc 3)| ≤
      err p 3 * (∑ k : Fin 3, |entry a i.castSucc k.castSucc * comp3 v k| + |entry a i.castSucc 3|) ∧
    |comp3 (a.rotV3 v) i - ∑ k : Fin 3, entry a i.castSucc k.castSucc * comp3 v k| ≤
      err p 3 * ∑ k : Fin 3, |entry a i.castSucc k.castSucc * comp3 v k| := by
  rw [Fin.sum_univ_three, Fin.sum_univ_three]
  constructor
  · fin_cases i <;>
      exact (Near.four (Near.prod _ _) (Near.prod _ _) (Near.prod _ _) ((Near.exact _).up (Nat.zero_le 1))).close
  · fin_cases i <;>
      exact (((Near.prod _ _).add (Near.prod _ _)).add ((Near.prod _ _).up (by omega : 1 ≤ 2))).close

/-- A chain of two: multiplying the matrices first, or applying them one after the other, is off by at most six roundings of the terms
`a i k * b k l * v l`. -/
theorem C166_compose (a b : Mat4 (Fl p)) (v : V4 (Fl p)) (i : Fin 4) :
    |comp ((a.mul b).mulV4 v) i - ∑ l, (∑ k, entry a i k * entry b k l) * comp v l| ≤
      err p 6 * ∑ l, (∑ k, |entry a i k * entry b k l|) * |comp v l| ∧
    |comp (a.mulV4 (b.mulV4 v)) i - ∑ l, (∑ k, entry a i k * entry b k l) * comp v l| ≤
      err p 6 * ∑ l, (∑ k, |entry a i k * entry b k l|) * |comp v l| := by
  simp only [abs_mul]
  have e : ∀ (f : Fin 4 → Fin 4 → Rat) (g h : Fin 4 → Rat),
      ∑ l, (∑ k, g k * f k l) * h l = ∑ k, g k * ∑ l, f k l * h l := by
    intro f g h
    simp only [Fin.sum_univ_four]
    ring
  refine ⟨(mulV4_near (mul_near (near_exact a) (near_exact b)) (near_exactV v) i).close, ?_⟩
  rw [e, e]
  exact (mulV4_near (near_exact a) (mulV4_near (near_exact b) (near_exactV v)) i).close

/-- **C166** for the cross product, fused or not: two roundings. -/
theorem C166_cross (l r : V3 (Fl p)) :
    let c := l.cross r
    let f := l.crossFused r
    let x := exactV l
    let y := exactV r
    ∀ i : Fin 3, let e : Fin 3 → Rat := ![x.y * y.z - x.z * y.y, x.z * y.x - x.x * y.z, x.x * y.y - x.y * y.x]
      let m : Fin 3 → Rat := ![|x.y * y.z| + |x.z * y.y|, |x.z * y.x| + |x.x * y.z|, |x.x * y.y| + |x.y * y.x|]
      |comp3 c i - e i| ≤ err p 2 * m i ∧ |comp3 f i - e i| ≤ err p 2 * m i := by
  intro c f x y i e m
  have fused : ∀ a b c d : Fl p, Near p 2 (Fl.fuse a b c d).val (a.val * b.val - c.val * d.val) (|a.val * b.val| + |c.val * d.val|) := by
    intro a b c d
    have := (((Near.exact (a.val * b.val)).up (Nat.zero_le 1)).plus (Near.prod c d).neg).round
    rw [← sub_eq_add_neg, ← sub_eq_add_neg] at this
    exact this
  fin_cases i
  · exact ⟨((Near.prod l.y r.z).sub (Near.prod l.z r.y)).close, (fused l.y r.z l.z r.y).close⟩
  · exact ⟨((Near.prod l.z r.x).sub (Near.prod l.x r.z)).close, (fused l.z r.x l.x r.z).close⟩
  · exact ⟨((Near.prod l.x r.y).sub (Near.prod l.y r.x)).close, (fused l.x r.y l.y r.x).close⟩

/-- Without fusing `cross` is antisymmetric and zero of equal arguments. -/
theorem C166_cross_self (l r : V3 (Fl p)) :
    exactV (l.cross r) = ⟨-(exactV (r.cross l)).x, -(exactV (r.cross l)).y, -(exactV (r.cross l)).z⟩ ∧
    exactV (l.cross l) = ⟨0, 0, 0⟩ := by
  have anti : ∀ a b c d : Fl p, (a * b - c * d).val = -(d * c - b * a).val := by
    intro a b c d
    show Angle.round p (Angle.round p (a.val * b.val) - Angle.round p (c.val * d.val)) =
      -Angle.round p (Angle.round p (d.val * c.val) - Angle.round p (b.val * a.val))
    rw [← Angle.round_neg, neg_sub, mul_comm b.val, mul_comm d.val]
  have self : ∀ a b : Fl p, (a * b - b * a).val = 0 := by
    intro a b
    show Angle.round p (Angle.round p (a.val * b.val) - Angle.round p (b.val * a.val)) = 0
    rw [mul_comm b.val, sub_self, Angle.round_zero]
  constructor
  · simp only [exactV, V3.cross, V3.mk.injEq]
    exact ⟨anti _ _ _ _, anti _ _ _ _, anti _ _ _ _⟩
  · simp only [exactV, V3.cross, V3.mk.injEq]
    exact ⟨self _ _, self _ _, self _ _⟩

/-- Fused, the cross product of a vector of `f32` with itself can be other than zero. -/
theorem C166_cross_fused :
    let v : V3 (Fl 24) := ⟨⟨4097⟩, ⟨4099⟩, ⟨0⟩⟩
    IsFloat 24 v.x.val ∧ IsFloat 24 v.y.val ∧ IsFloat 24 v.z.val ∧ exactV (v.crossFused v) ≠ ⟨0, 0, 0⟩ := by
  refine ⟨⟨4097, 0, by norm_num, by norm_num⟩, ⟨4099, 0, by norm_num, by norm_num⟩, ⟨0, 0, by norm_num, by norm_num⟩, by decide +kernel⟩

/-- Relative to the result there is no bound: the third component of this cross product of vectors of `f32` is 1, and comes out as 0. -/
theorem C166_cancel :
    let l : V3 (Fl 24) := ⟨⟨4097⟩, ⟨1⟩, ⟨0⟩⟩
    let r : V3 (Fl 24) := ⟨⟨16785408⟩, ⟨4097⟩, ⟨0⟩⟩
    (exactV l).x * (exactV r).y - (exactV l).y * (exactV r).x = 1 ∧ (l.cross r).z.val = 0 := by decide +kernel

/-- **C166** for products of quaternions: four roundings. -/
theorem C166_quat (q r : Quat (Fl p)) :
    let Q := exactQ q
    let R := exactQ r
    |(q.mul r).x.val - (Q.mul R).x| ≤ err p 4 * (|Q.y * R.z| + |Q.z * R.y| + |Q.x * R.w| + |Q.w * R.x|) ∧
    |(q.mul r).y.val - (Q.mul R).y| ≤ err p 4 * (|Q.z * R.x| + |Q.x * R.z| + |Q.y * R.w| + |Q.w * R.y|) ∧
    |(q.mul r).z.val - (Q.mul R).z| ≤ err p 4 * (|Q.x * R.y| + |Q.y * R.x| + |Q.z * R.w| + |Q.w * R.z|) ∧
    |(q.mul r).w.val - (Q.mul R).w| ≤ err p 4 * (|Q.w * R.w| + |Q.x * R.x| + |Q.y * R.y| + |Q.z * R.z|) := by
  simp only [abs_mul]
  have h : ∀ x : Rat, Near p 0 x x |x| := Near.exact
  obtain ⟨h1, h2, h3, h4⟩ := qmul_near (q := q) (r := r) (Q := exactQ q) (R := exactQ r)
    (A := ⟨|q.x.val|, |q.y.val|, |q.z.val|, |q.w.val|⟩) (B := ⟨|r.x.val|, |r.y.val|, |r.z.val|, |r.w.val|⟩)
    (h _) (h _) (h _) (h _) (h _) (h _) (h _) (h _)
  exact ⟨h1.close, h2.close, h3.close, h4.close⟩

/-- **C166** for turning a vector by a quaternion: eight roundings of terms that are twelve times the square of the largest component of the
quaternion times that of the vector. -/
theorem C166_rotate (q : Quat (Fl p)) (v : V3 (Fl p)) {M N : Rat} (hq : |q.x.val| ≤ M ∧ |q.y.val| ≤ M ∧ |q.z.val| ≤ M ∧ |q.w.val| ≤ M)
    (hv : |v.x.val| ≤ N ∧ |v.y.val| ≤ N ∧ |v.z.val| ≤ N) :
    let e := (exactQ q).rotate (exactV v)
    let r := q.rotate v
    |r.x.val - e.x| ≤ err p 8 * (12 * M ^ 2 * N) ∧ |r.y.val - e.y| ≤ err p 8 * (12 * M ^ 2 * N) ∧
    |r.z.val - e.z| ≤ err p 8 * (12 * M ^ 2 * N) := by
  have near : ∀ {x B : Rat}, |x| ≤ B → Near p 0 x x B := fun h => ⟨by simp [err], h⟩
  have hM : 0 ≤ M := (abs_nonneg _).trans hq.1
  have hN : 0 ≤ N := (abs_nonneg _).trans hv.1
  obtain ⟨h1, h2, h3, h4⟩ := qmul_near (q := q) (r := .ofV3 v 0) (Q := exactQ q) (R := .ofV3 (exactV v) 0)
    (A := ⟨M, M, M, M⟩) (B := ⟨N, N, N, 0⟩)
    (near hq.1) (near hq.2.1) (near hq.2.2.1) (near hq.2.2.2) (near hv.1) (near hv.2.1) (near hv.2.2)
    (near (x := 0) (by simp))
  have neg : ∀ {x B : Rat}, |x| ≤ B → Near p 0 (-x) (-x) B := fun h => (near h).neg
  obtain ⟨g1, g2, g3, _⟩ := qmul_near (q := q.mul (.ofV3 v 0)) (r := q.conjugate) (Q := (exactQ q).mul (.ofV3 (exactV v) 0))
    (R := (exactQ q).conjugate)
    (A := ⟨3 * M * N, 3 * M * N, 3 * M * N, 3 * M * N⟩) (B := ⟨M, M, M, M⟩)
    (h1.cast rfl (by ring)) (h2.cast rfl (by ring)) (h3.cast rfl (by ring)) (h4.cast rfl (by ring))
    (neg hq.1) (neg hq.2.1) (neg hq.2.2.1) (near hq.2.2.2)
  exact ⟨(g1.cast rfl (by ring)).close, (g2.cast rfl (by ring)).close, (g3.cast rfl (by ring)).close⟩

/-- The unit matrix changes nothing, and transposing reverses products, without any error. -/
theorem C166_exact (a b : Mat4 (Fl p)) (v : V4 (Fl p)) (i j : Fin 4) :
    (a.Floats → entry (Mat4.I.mul a) i j = entry a i j ∧ entry (a.mul Mat4.I) i j = entry a i j) ∧
    ((∀ i, IsFloat p (comp v i)) → comp (Mat4.I.mulV4 v) i = comp v i) ∧
    entry (a.mul b).transpose i j = entry (b.transpose.mul a.transpose) i j := by
  have one : ∀ x : Fl p, IsFloat p x.val → x * 1 = x := by
    rintro ⟨x⟩ hx
    show (⟨Angle.round p (x * 1)⟩ : Fl p) = _
    rw [mul_one, Angle.round_float hx]
  have zero : ∀ x : Fl p, x * 0 = 0 := by
    rintro ⟨x⟩
    show (⟨Angle.round p (x * 0)⟩ : Fl p) = ⟨0⟩
    rw [mul_zero, Angle.round_zero]
  have comm : ∀ x y : Fl p, x * y = y * x := by
    rintro ⟨x⟩ ⟨y⟩
    show (⟨Angle.round p (x * y)⟩ : Fl p) = ⟨Angle.round p (y * x)⟩
    rw [mul_comm]
  have add0 : ∀ x : Fl p, IsFloat p x.val → x + 0 = x := by
    rintro ⟨x⟩ hx
    show (⟨Angle.round p (x + 0)⟩ : Fl p) = _
    rw [add_zero, Angle.round_float hx]
  have zero_add : ∀ x : Fl p, IsFloat p x.val → 0 + x = x := by
    rintro ⟨x⟩ hx
    show (⟨Angle.round p (0 + x)⟩ : Fl p) = _
    rw [_root_.zero_add, Angle.round_float hx]
  have h0 : IsFloat p (0 : Fl p).val := ⟨0, 0, by positivity, by norm_num; rfl⟩
  have zz : (0 : Fl p) + 0 = 0 := add0 0 h0
  have p0 : ∀ x y z w : Fl p, IsFloat p x.val → (x * 1 + y * 0) + (z * 0 + w * 0) = x := by
    intro x y z w h; rw [one x h, zero, zero, zero, zz, add0 x h, add0 x h]
  have p1 : ∀ x y z w : Fl p, IsFloat p y.val → (x * 0 + y * 1) + (z * 0 + w * 0) = y := by
    intro x y z w h; rw [one y h, zero, zero, zero, zz, zero_add y h, add0 y h]
  have p2 : ∀ x y z w : Fl p, IsFloat p z.val → (x * 0 + y * 0) + (z * 1 + w * 0) = z := by
    intro x y z w h; rw [one z h, zero, zero, zero, zz, add0 z h, zero_add z h]
  have p3 : ∀ x y z w : Fl p, IsFloat p w.val → (x * 0 + y * 0) + (z * 0 + w * 1) = w := by
    intro x y z w h; rw [one w h, zero, zero, zero, zz, zero_add w h, zero_add w h]
  have q0 : ∀ x y z w : Fl p, IsFloat p x.val → (1 * x + 0 * y) + (0 * z + 0 * w) = x := by
    intro x y z w h; rw [comm 1, comm 0, comm 0, comm 0, p0 _ _ _ _ h]
  have q1 : ∀ x y z w : Fl p, IsFloat p y.val → (0 * x + 1 * y) + (0 * z + 0 * w) = y := by
    intro x y z w h; rw [comm 1, comm 0, comm 0, comm 0, p1 _ _ _ _ h]
  have q2 : ∀ x y z w : Fl p, IsFloat p z.val → (0 * x + 0 * y) + (1 * z + 0 * w) = z := by
    intro x y z w h; rw [comm 1, comm 0, comm 0, comm 0, p2 _ _ _ _ h]
  have q3 : ∀ x y z w : Fl p, IsFloat p w.val → (0 * x + 0 * y) + (0 * z + 1 * w) = w := by
    intro x y z w h; rw [comm 1, comm 0, comm 0, comm 0, p3 _ _ _ _ h]
  refine ⟨fun ha => ⟨?_, ?_⟩, fun hv => ?_, ?_⟩
  · rw [mul_entry]
    fin_cases i
    · exact congrArg Fl.val (p0 _ _ _ _ (ha 0 j))
    · exact congrArg Fl.val (p1 _ _ _ _ (ha 1 j))
    · exact congrArg Fl.val (p2 _ _ _ _ (ha 2 j))
    · exact congrArg Fl.val (p3 _ _ _ _ (ha 3 j))
  · rw [mul_entry]
    fin_cases j
    · exact congrArg Fl.val (q0 _ _ _ _ (ha i 0))
    · exact congrArg Fl.val (q1 _ _ _ _ (ha i 1))
    · exact congrArg Fl.val (q2 _ _ _ _ (ha i 2))
    · exact congrArg Fl.val (q3 _ _ _ _ (ha i 3))
  · rw [mulV4_comp]
    fin_cases i
    · exact congrArg Fl.val (q0 _ _ _ _ (hv 0))
    · exact congrArg Fl.val (q1 _ _ _ _ (hv 1))
    · exact congrArg Fl.val (q2 _ _ _ _ (hv 2))
    · exact congrArg Fl.val (q3 _ _ _ _ (hv 3))
  · have ht : ∀ (m : Mat4 (Fl p)) (i j : Fin 4), (m.transpose.col j).get i = (m.col i).get j := by
      intro m i j
      fin_cases i <;> fin_cases j <;> rfl
    have h1 : entry (a.mul b).transpose i j = entry (a.mul b) j i := congrArg Fl.val (ht _ i j)
    rw [h1, mul_entry, mul_entry]
    have e : ∀ k : Fin 4, (a.transpose.col j).get k * (b.transpose.col k).get i = (b.col i).get k * (a.col k).get j := by
      intro k; rw [ht, ht, comm]
    have e0 := e 0
    have e1 := e 1
    have e2 := e 2
    have e3 := e 3
    change _ = Fl.val (((a.transpose.col j).get ((0 : Fin 4) : Nat) * (b.transpose.col ((0 : Fin 4) : Nat)).get i +
      (a.transpose.col j).get ((1 : Fin 4) : Nat) * (b.transpose.col ((1 : Fin 4) : Nat)).get i) +
      ((a.transpose.col j).get ((2 : Fin 4) : Nat) * (b.transpose.col ((2 : Fin 4) : Nat)).get i +
      (a.transpose.col j).get ((3 : Fin 4) : Nat) * (b.transpose.col ((3 : Fin 4) : Nat)).get i))
    rw [e0, e1, e2, e3]
    rfl

/-- The determinant that `inverse` divides by: eight roundings of its terms. -/
theorem C166_det (m : Mat4 (Fl p)) :
    |(detV m).x.val - Matrix.det (Matrix.of (entry m))| ≤ err p 8 * terms 4 (entry m) := by
  have h : Near p 8 (detV m).x.val (Matrix.det (Matrix.of (entry m))) (terms 4 (entry m)) := by
    have sub2 : ∀ a b c d : Fl p, Near p 2 (a * b - c * d).val (a.val * b.val - c.val * d.val) (|a.val| * |b.val| + |c.val| * |d.val|) :=
      fun a b c d => ((Near.prod a b).sub (Near.prod c d)).cast rfl (by rw [abs_mul, abs_mul])
    have pair : ∀ {a b c d : Fl p} {s1 s2 s3 s4 m1 m2 m3 m4 : Rat}, Near p 2 a.val s1 m1 → Near p 2 b.val s2 m2 →
        Near p 2 c.val s3 m3 → Near p 2 d.val s4 m4 → Near p 6 (a * b + c * d).val (s1 * s2 + s3 * s4) (m1 * m2 + m3 * m4) :=
      fun h1 h2 h3 h4 => (h1.mul h2).add (h3.mul h4)
    refine Near.cast (((pair (sub2 m.c0.x m.c1.y m.c0.y m.c1.x) (sub2 m.c2.z m.c3.w m.c2.w m.c3.z)
      (sub2 m.c0.z m.c1.w m.c0.w m.c1.z) (sub2 m.c2.x m.c3.y m.c2.y m.c3.x)).up (by omega : 6 ≤ 7)).sub
      ((pair (sub2 m.c1.y m.c0.z m.c0.y m.c1.z) (sub2 m.c3.w m.c2.x m.c2.w m.c3.x)
        (sub2 m.c1.y m.c0.w m.c0.y m.c1.w) (sub2 m.c2.z m.c3.x m.c3.z m.c2.x)).add
       (pair (sub2 m.c0.x m.c1.z m.c1.x m.c0.z) (sub2 m.c3.w m.c2.y m.c2.w m.c3.y)
        (sub2 m.c0.x m.c1.w m.c1.x m.c0.w) (sub2 m.c2.z m.c3.y m.c3.z m.c2.y)))) ?_ ?_
    · rw [Matrix.det_succ_row_zero]
      simp [Fin.sum_univ_succ, Matrix.det_fin_three, entry, Mat4.col, V4.get, Fin.succAbove]
      ring
    · simp [terms, Fin.sum_univ_succ, entry, Mat4.col, V4.get, Fin.succAbove]
      ring
  exact h.close

/-- In `f32` the three, six and eight roundings are below `2 ^ -22`, `2 ^ -21` and `2 ^ -20`. -/
example : err 24 3 < 1 / 2 ^ 22 ∧ err 24 6 < 1 / 2 ^ 21 ∧ err 24 8 < 1 / 2 ^ 20 := by
  unfold err; norm_num

/-- A product that is rounded: the first entry should be `4097² + 4098² = 33579013`. -/
example : let a : Mat4 (Fl 24) := ⟨⟨⟨4097⟩, 0, 0, 0⟩, ⟨⟨4098⟩, 0, 0, 0⟩, ⟨0, 0, 0, 0⟩, ⟨0, 0, 0, 0⟩⟩
    entry (a.mul a.transpose) 0 0 = 33579012 ∧ entry (Mat4.I.mul a) 0 1 = 4098 := by decide +kernel

/-- A quarter turn about the z axis by a quaternion whose components are rounded: the error is within the bound. -/
example : let q : Quat (Fl 24) := ⟨0, 0, ⟨11863283 / 2 ^ 24⟩, ⟨11863283 / 2 ^ 24⟩⟩
    let r := q.rotate ⟨⟨3⟩, 0, 0⟩
    |r.y.val - 3| < 1 / 10 ^ 6 ∧ |r.x.val| < 1 / 10 ^ 6 := by decide +kernel

end Rpp.Props
