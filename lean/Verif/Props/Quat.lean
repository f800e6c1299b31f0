import Verif.Proof.Euler
import Mathlib.Algebra.Field.Rat
import Mathlib.Algebra.Order.Ring.Rat
import Mathlib.Tactic.NormNum

/-!
# C71, C88, C89: quaternions and Euler angles
-/

namespace Rpp.Props

open Rpp.VMath Rpp.Spec Matrix

variable {K : Type} [Field K]

/-! ## C71: quaternion algebra and rotation -/

/-- `Quat` is Mathlib's quaternion algebra: the same product, sum, conjugate, norm and identity. -/
theorem C71_quaternion (p q : Quat K) (s : K) :
    (p.mul q).toH = p.toH * q.toH ∧ (p.add q).toH = p.toH + q.toH ∧ (p.sub q).toH = p.toH - q.toH ∧ p.neg.toH = -p.toH ∧
    (p.smul s).toH = s • p.toH ∧ p.conjugate.toH = star p.toH ∧ (Quat.one : Quat K).toH = 1 ∧
    p.norm2 = Quaternion.normSq p.toH := by
  refine ⟨toH_mul p q, ?_, ?_, ?_, ?_, ?_, ?_, ?_⟩
  · ext <;> simp [Quat.add]
  · ext <;> simp [Quat.sub]
  · ext <;> simp [Quat.neg]
  · ext <;> simp [Quat.smul]
  · ext <;> simp [Quat.conjugate]
  · ext <;> rfl
  · rw [Quaternion.normSq_def']
    simp only [toH_re, toH_imI, toH_imJ, toH_imK, Quat.norm2]
    ring

/-- The product is associative with identity `Quat()`, norms multiply, conjugation reverses products. -/
theorem C71_algebra (p q r : Quat K) :
    (p.mul q).mul r = p.mul (q.mul r) ∧ Quat.one.mul p = p ∧ p.mul Quat.one = p ∧
    (p.mul q).norm2 = p.norm2 * q.norm2 ∧ (p.mul q).conjugate = q.conjugate.mul p.conjugate := by
  have h1 : (Quat.one : Quat K).toH = 1 := (C71_quaternion p q 0).2.2.2.2.2.2.1
  refine ⟨?_, ?_, ?_, ?_, ?_⟩
  · apply toH_inj; simp only [toH_mul, mul_assoc]
  · apply toH_inj; rw [toH_mul, h1, one_mul]
  · apply toH_inj; rw [toH_mul, h1, mul_one]
  · simp only [Quat.norm2, Quat.mul]; ring
  · simp only [Quat.conjugate, Quat.mul, Quat.mk.injEq]
    refine ⟨?_, ?_, ?_, ?_⟩ <;> ring

/-- Rotating by a product is rotating by one factor after the other; for unit quaternions `rotate` is the rotation given
by `to_mat`, and `to_mat` turns products into products. -/
theorem C71_rotate (p q : Quat K) (v : V3 K) :
    (p.mul q).rotate v = p.rotate (q.rotate v) ∧
    (q.norm2 = 1 → q.to_mat.rotV3 v = q.rotate v ∧ IsRotation q.to_mat.toMatrix) ∧
    (p.norm2 = 1 → q.norm2 = 1 → (p.mul q).to_mat = p.to_mat.mul q.to_mat) := by
  refine ⟨?_, fun h => ⟨to_mat_rotate h v, to_mat_rotation h⟩, to_mat_mul⟩
  simp only [Quat.rotate, Quat.mul, Quat.conjugate, Quat.ofV3, Quat.complex, V3.mk.injEq]
  refine ⟨?_, ?_, ?_⟩ <;> ring

/-- The vector part of `q v q*` is all there is: the real part is zero, so `rotate` loses nothing. -/
theorem C71_rotate_pure (q : Quat K) (v : V3 K) :
    (Quat.ofV3 (q.rotate v) 0).toH = q.toH * (Quat.ofV3 v 0).toH * star q.toH := by
  ext <;> simp [Quat.rotate, Quat.mul, Quat.conjugate, Quat.ofV3, Quat.complex] <;> ring

/-- `axis_angle` gives the same rotation as `Mat4::rotate` about the axis; `c` and `s` belong to half the angle. -/
theorem C71_axis_angle {sqrt : K → K} {axis : V3 K} {c s : K} (hcs : c * c + s * s = 1) (h1 : sqrt 1 = 1)
    (hs : sqrt (axis.dot axis) * sqrt (axis.dot axis) = axis.dot axis) (h : axis.dot axis ≠ 0) :
    (Quat.axis_angle sqrt axis c s).norm2 = 1 ∧
    (Quat.axis_angle sqrt axis c s).to_mat = Mat4.rotate sqrt (c * c - s * s) (2 * s * c) axis := by
  have hu := unit_unit hs h
  unfold Quat.axis_angle Mat4.rotate
  dsimp only
  generalize axis.unit sqrt = a at hu
  obtain ⟨x, y, z⟩ := a
  simp only at hu
  have hn : (Quat.mk (s * x) (s * y) (s * z) c : Quat K).norm2 = 1 := by simp only [Quat.norm2]; grind
  have e : Quat.unit sqrt ⟨s * x, s * y, s * z, c⟩ = ⟨s * x, s * y, s * z, c⟩ := by simp [Quat.unit, hn, h1]
  rw [e]
  refine ⟨hn, ?_⟩
  simp only [Quat.to_mat, V3.smul, Mat4.mk.injEq, V4.mk.injEq, and_true]
  refine ⟨⟨?_, ?_, ?_⟩, ⟨?_, ?_, ?_⟩, ?_, ?_, ?_⟩ <;> grind

/-- `q * inverse(q)` is the norm of `q`, which is one for unit quaternions. `_partial`: it should be one for every
nonzero quaternion, see `C71_false`. -/
theorem C71_inverse_partial {sqrt : K → K} {q : Quat K} (hs : sqrt q.norm2 * sqrt q.norm2 = q.norm2) (h : q.norm2 ≠ 0) :
    q.mul (q.inverse sqrt) = ⟨0, 0, 0, sqrt q.norm2⟩ ∧ (q.inverse sqrt).mul q = ⟨0, 0, 0, sqrt q.norm2⟩ ∧
    (sqrt q.norm2 = 1 → q.mul (q.inverse sqrt) = Quat.one) := by
  have hn : q.conjugate.norm2 = q.norm2 := by simp [Quat.norm2, Quat.conjugate]
  have hn0 : sqrt q.norm2 ≠ 0 := by intro e; rw [e] at hs; rw [← hs] at h; simp at h
  have hm : q.mul (q.inverse sqrt) = ⟨0, 0, 0, sqrt q.norm2⟩ := by
    unfold Quat.inverse Quat.unit
    rw [hn]
    generalize sqrt q.norm2 = n at hs hn0
    simp only [Quat.norm2] at hs
    simp only [Quat.mul, Quat.conjugate, Quat.mk.injEq]
    refine ⟨?_, ?_, ?_, ?_⟩ <;> field_simp <;> grind
  have hm' : (q.inverse sqrt).mul q = ⟨0, 0, 0, sqrt q.norm2⟩ := by
    unfold Quat.inverse Quat.unit
    rw [hn]
    generalize sqrt q.norm2 = n at hs hn0
    simp only [Quat.norm2] at hs
    simp only [Quat.mul, Quat.conjugate, Quat.mk.injEq]
    refine ⟨?_, ?_, ?_, ?_⟩ <;> field_simp <;> grind
  refine ⟨hm, hm', fun e => ?_⟩
  rw [hm, e]
  rfl

/-- The last part of the property is false: for `q = 2` the product `q * inverse(q)` is 2. -/
theorem C71_false : (Quat.mul ⟨0, 0, 0, 2⟩ (Quat.inverse (fun _ => 2) ⟨0, 0, 0, 2⟩) : Quat ℚ) = ⟨0, 0, 0, 2⟩ ∧
    (2 : ℚ) * 2 = Quat.norm2 ⟨0, 0, 0, 2⟩ := by decide +kernel

/-- A turn by 90 degrees about the z axis, made of two of half that (3-4-5 triangles instead of square roots). -/
example : (Quat.rotate ⟨0, 0, 3 / 5, 4 / 5⟩ ⟨5, 0, 1⟩ : V3 ℚ) = ⟨7 / 5, 24 / 5, 1⟩ ∧
    (Quat.norm2 ⟨0, 0, 3 / 5, 4 / 5⟩ : ℚ) = 1 := by decide +kernel

/-! ## C88: `Quat::euler`

Full statement: `euler(a)` is the turn about x by `a.x`, then about y by `a.y`, then about z by `a.z`, for all angles. -/

/-- Trigonometry in degrees: the double angle formulas and some values. -/
structure Trig (cos sin : K → K) : Prop where
  one : ∀ t, cos t * cos t + sin t * sin t = 1
  cos2 : ∀ t, cos t = cos (t * 2⁻¹) * cos (t * 2⁻¹) - sin (t * 2⁻¹) * sin (t * 2⁻¹)
  sin2 : ∀ t, sin t = 2 * sin (t * 2⁻¹) * cos (t * 2⁻¹)
  zero : cos 0 = 1 ∧ sin 0 = 0
  half : cos 180 = -1 ∧ sin 180 = 0

/-- Right for all angles other than `(180, 0, 0)`. `_partial`: those, see `C88_false`. -/
theorem C88_euler_partial [DecidableEq K] {cos sin sqrt : K → K} (ht : Trig cos sin) (h1 : sqrt 1 = 1) (a : V3 K)
    (ha : a ≠ ⟨180, 0, 0⟩) :
    (Quat.euler cos sin a).to_mat = ((Mat4.rotate sqrt (cos a.z) (sin a.z) ⟨0, 0, 1⟩).mul
      (Mat4.rotate sqrt (cos a.y) (sin a.y) ⟨0, 1, 0⟩)).mul (Mat4.rotate sqrt (cos a.x) (sin a.x) ⟨1, 0, 0⟩) := by
  rw [turns sqrt h1]
  unfold Quat.euler
  split
  · rename_i h
    rcases h with rfl | h
    · simp [Quat.to_mat, ht.zero, ht.half]
      norm_num
    · exact absurd h ha
  · dsimp only
    have ex := ht.one (a.x * 2⁻¹)
    have ey := ht.one (a.y * 2⁻¹)
    have ez := ht.one (a.z * 2⁻¹)
    rw [ht.cos2 a.x, ht.cos2 a.y, ht.cos2 a.z, ht.sin2 a.x, ht.sin2 a.y, ht.sin2 a.z]
    generalize cos (a.x * 2⁻¹) = cx at *
    generalize sin (a.x * 2⁻¹) = sx at *
    generalize cos (a.y * 2⁻¹) = cy at *
    generalize sin (a.y * 2⁻¹) = sy at *
    generalize cos (a.z * 2⁻¹) = cz at *
    generalize sin (a.z * 2⁻¹) = sz at *
    simp only [Quat.to_mat, Mat4.mk.injEq, V4.mk.injEq, and_true]
    refine ⟨⟨?_, ?_, ?_⟩, ⟨?_, ?_, ?_⟩, ?_, ?_, ?_⟩ <;> grind

/-- The property is false: a half turn about x should take the z axis to its opposite, `euler(180, 0, 0)` leaves it. -/
theorem C88_false [DecidableEq K] {cos sin sqrt : K → K} (ht : Trig cos sin) (h1 : sqrt 1 = 1) :
    (Quat.euler cos sin ⟨180, 0, 0⟩).rotate ⟨0, 0, 1⟩ = ⟨0, 0, 1⟩ ∧
    (((Mat4.rotate sqrt (cos 0) (sin 0) ⟨0, 0, 1⟩).mul (Mat4.rotate sqrt (cos 0) (sin 0) ⟨0, 1, 0⟩)).mul
      (Mat4.rotate sqrt (cos 180) (sin 180) ⟨1, 0, 0⟩)).rotV3 ⟨0, 0, 1⟩ = ⟨0, 0, -1⟩ := by
  refine ⟨?_, ?_⟩
  · unfold Quat.euler
    rw [if_pos (.inr rfl)]
    simp [Quat.rotate, Quat.mul, Quat.conjugate, Quat.ofV3, Quat.complex]
  · rw [turns _ h1]
    simp [ht.zero, ht.half, Mat4.rotV3, Mat4.col, V4.xyz, V4.add, V4.mul, V4.set1]

/-! ## C89: `Mat4::to_euler`

Full statement: for every rotation the angles returned make up the rotation again. -/

/-- Right unless the z column's tilt is within `EPS_F` of a right angle without being one. `_partial`: there the code
takes the nearby tilt (by design). -/
theorem C89_to_euler_partial [LinearOrder K] [IsStrictOrderedRing K] {A : Type} {hypot : K → K → K} {atan2 : K → K → A}
    {cos sin : A → K} {flip : V3 A} {zero : A} {far : V3 A → V3 A → Bool} {sqrt : K → K} {ε : K}
    (h1 : sqrt 1 = 1) (hh : ∀ a b, 0 ≤ hypot a b ∧ hypot a b * hypot a b = a * a + b * b)
    (ha : ∀ b a, a = hypot a b * cos (atan2 b a) ∧ b = hypot a b * sin (atan2 b a))
    (h0 : cos zero = 1 ∧ sin zero = 0) (hε : 0 ≤ ε) (hε' : ε ≤ 1 / 4) {x y z : V3 K}
    (hr : IsRotation (Mat4.mk (.ofV3 x 0) (.ofV3 y 0) (.ofV3 z 0) ⟨0, 0, 0, 1⟩ : Mat4 K).toMatrix)
    (hb : ε < hypot x.x x.y ∨ hypot x.x x.y = 0) :
    let m : Mat4 K := ⟨.ofV3 x 0, .ofV3 y 0, .ofV3 z 0, ⟨0, 0, 0, 1⟩⟩
    let e := Mat4.to_euler hypot atan2 (fun a b => decide (|a - b| < ε)) (fun a => decide (ε < a)) flip zero far m
    ((Mat4.rotate sqrt (cos e.z) (sin e.z) ⟨0, 0, 1⟩).mul (Mat4.rotate sqrt (cos e.y) (sin e.y) ⟨0, 1, 0⟩)).mul
      (Mat4.rotate sqrt (cos e.x) (sin e.x) ⟨1, 0, 0⟩) = m := by
  obtain ⟨hx, hy, hxy, hz⟩ := frame_of_rotation hr
  intro m e
  have key : ∀ f : V3 A, (cos f.z * cos f.y = x.x ∧ sin f.z * cos f.y = x.y ∧ -sin f.y = x.z ∧
      cos f.z * sin f.y * sin f.x - sin f.z * cos f.x = y.x ∧ sin f.z * sin f.y * sin f.x + cos f.z * cos f.x = y.y ∧
      cos f.y * sin f.x = y.z ∧ cos f.z * sin f.y * cos f.x + sin f.z * sin f.x = z.x ∧
      sin f.z * sin f.y * cos f.x - cos f.z * sin f.x = z.y ∧ cos f.y * cos f.x = z.z) →
      ((Mat4.rotate sqrt (cos f.z) (sin f.z) ⟨0, 0, 1⟩).mul (Mat4.rotate sqrt (cos f.y) (sin f.y) ⟨0, 1, 0⟩)).mul
      (Mat4.rotate sqrt (cos f.x) (sin f.x) ⟨1, 0, 0⟩) = m := by
    intro f hf
    rw [turns sqrt h1]
    obtain ⟨e1, e2, e3, e4, e5, e6, e7, e8, e9⟩ := hf
    simp only [m, V4.ofV3, Mat4.mk.injEq, V4.mk.injEq, and_true]
    exact ⟨⟨e1, e2, e3⟩, ⟨e4, e5, e6⟩, e7, e8, e9⟩
  apply key
  have hz1 : z.x = x.y * y.z - x.z * y.y ∧ z.y = x.z * y.x - x.x * y.z ∧ z.z = x.x * y.y - x.y * y.x := by
    rw [hz]; exact ⟨rfl, rfl, rfl⟩
  have hsq : ∀ {a b : K}, 0 ≤ a → 0 ≤ b → a * a = b * b → a = b := fun p q r => (mul_self_inj p q).1 r
  obtain ⟨n1, n2⟩ := hh x.x x.y
  have hcase := to_euler_cases (hypot := hypot) (atan2 := atan2) (close := fun a b => decide (|a - b| < ε))
    (big := fun a => decide (ε < a)) (flip := flip) (zero := zero) (far := far) (x := x) (y := y) (z := z) (by
      intro ⟨a0, a1, a4, a5, a10⟩
      simp only [decide_eq_true_eq] at a0 a1 a4 a5 a10
      exact not_singular hε' hz a0 a1 a4 a5 a10)
  dsimp only at hcase
  have he : Mat4.to_euler hypot atan2 (fun a b => decide (|a - b| < ε)) (fun a => decide (ε < a)) flip zero far
    ⟨.ofV3 x 0, .ofV3 y 0, .ofV3 z 0, ⟨0, 0, 0, 1⟩⟩ = e := rfl
  rw [he] at hcase
  clear he
  clear_value e
  clear key
  clear m hr hz
  obtain ⟨x0, x1, x2⟩ := x
  obtain ⟨y0, y1, y2⟩ := y
  obtain ⟨z0, z1, z2⟩ := z
  simp only at *
  obtain ⟨hz0, hz1, hz2⟩ := hz1
  generalize hcy : hypot x0 x1 = h at *
  have hb2 : ∀ t, t * t = h * h → hypot t (-x2) = 1 := by
    intro t ht
    obtain ⟨p1, p2⟩ := hh t (-x2)
    exact hsq p1 zero_le_one (by rw [p2, ht, n2]; linear_combination hx)
  have hb3 : ∀ s t, t * t = z2 * z2 → s * s = y2 * y2 → hypot t s = h := by
    intro s t hs ht
    obtain ⟨p1, p2⟩ := hh t s
    exact hsq p1 n1 (by rw [p2, n2, hs, ht]; grind)
  have hb4 : ∀ s t, t * t = x0 * x0 → s * s = x1 * x1 → hypot t s = h := by
    intro s t hs ht
    obtain ⟨p1, p2⟩ := hh t s
    exact hsq p1 n1 (by rw [p2, n2, hs, ht])
  rcases hcase with ⟨hbig, hcase⟩ | ⟨hbig, rfl⟩
  · have hbig : ε < h := of_decide_eq_true hbig
    have hh0 : h ≠ 0 := ne_of_gt (lt_of_le_of_lt hε hbig)
    rcases Or.symm hcase with rfl | rfl
    · obtain ⟨a1, a2⟩ := ha (-y2) (-z2)
      obtain ⟨b1, b2⟩ := ha (-x2) (-h)
      obtain ⟨c1, c2⟩ := ha (-x1) (-x0)
      rw [hb3 (-y2) (-z2) (by ring) (by ring)] at a1 a2
      rw [hb2 (-h) (by ring)] at b1 b2
      rw [hb4 (-x1) (-x0) (by ring) (by ring)] at c1 c2
      dsimp only
      generalize cos (atan2 (-y2) (-z2)) = ca at *
      generalize sin (atan2 (-y2) (-z2)) = sa at *
      generalize cos (atan2 (-x2) (-h)) = cb at *
      generalize sin (atan2 (-x2) (-h)) = sb at *
      generalize cos (atan2 (-x1) (-x0)) = cc at *
      generalize sin (atan2 (-x1) (-x0)) = sc at *
      clear hsq hb2 hb3 hb4 ha hh hcy hb
      refine ⟨?_, ?_, ?_, ?_, ?_, ?_, ?_, ?_, ?_⟩ <;> grind
    · obtain ⟨a1, a2⟩ := ha y2 z2
      obtain ⟨b1, b2⟩ := ha (-x2) h
      obtain ⟨c1, c2⟩ := ha x1 x0
      rw [hb3 y2 z2 rfl rfl] at a1 a2
      rw [hb2 h rfl] at b1 b2
      rw [hcy] at c1 c2
      dsimp only
      generalize cos (atan2 y2 z2) = ca at *
      generalize sin (atan2 y2 z2) = sa at *
      generalize cos (atan2 (-x2) h) = cb at *
      generalize sin (atan2 (-x2) h) = sb at *
      generalize cos (atan2 x1 x0) = cc at *
      generalize sin (atan2 x1 x0) = sc at *
      clear hsq hb2 hb3 hb4 ha hh hcy hb
      refine ⟨?_, ?_, ?_, ?_, ?_, ?_, ?_, ?_, ?_⟩ <;> grind
  · have hbig : ¬ ε < h := of_decide_eq_false hbig
    have hh0 : h = 0 := by
      rcases hb with hb | hb
      · exact absurd hb hbig
      · exact hb
    subst hh0
    have hxx : x0 = 0 ∧ x1 = 0 := by
      have q0 : 0 ≤ x0 * x0 := mul_self_nonneg x0
      have q1 : 0 ≤ x1 * x1 := mul_self_nonneg x1
      constructor
      · have : x0 * x0 = 0 := by linarith
        exact mul_self_eq_zero.1 this
      · have : x1 * x1 = 0 := by linarith
        exact mul_self_eq_zero.1 this
    obtain ⟨rfl, rfl⟩ := hxx
    obtain ⟨a1, a2⟩ := ha (-z1) y1
    obtain ⟨b1, b2⟩ := ha (-x2) 0
    rw [hb2 0 rfl] at b1 b2
    have hy2 : y2 = 0 := by
      have : x2 * y2 = 0 := by linear_combination hxy
      rcases mul_eq_zero.1 this with q | q
      · rw [q] at hx; simp at hx
      · exact q
    have h5 : hypot y1 (-z1) = 1 := by
      obtain ⟨p1, p2⟩ := hh y1 (-z1)
      exact hsq p1 zero_le_one (by rw [p2]; grind)
    rw [h5] at a1 a2
    dsimp only
    rw [h0.1, h0.2]
    generalize cos (atan2 (-z1) y1) = ca at *
    generalize sin (atan2 (-z1) y1) = sa at *
    generalize cos (atan2 (-x2) 0) = cb at *
    generalize sin (atan2 (-x2) 0) = sb at *
    clear hsq hb2 hb3 hb4 ha hh hcy hb h5
    refine ⟨?_, ?_, ?_, ?_, ?_, ?_, ?_, ?_, ?_⟩ <;> grind

end Rpp.Props
