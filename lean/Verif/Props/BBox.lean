import Verif.Proof.BBox
import Mathlib.Algebra.Field.Rat
import Mathlib.Algebra.Order.Ring.Rat
import Mathlib.Tactic.FieldSimp

/-!
# C72, C90–C92: bounding boxes and projection
-/

namespace Rpp.Props

open Rpp.VMath Rpp.Spec

/-! ## C72: boxes enclose -/

section
variable {K : Type} [LinearOrder K]

/-- Starting from the default box, after enclosing any nonempty list of points and boxes the box is the smallest that
contains them all; before the first it has no points. -/
theorem C72_enclose {lo hi : K} (hl : lo < hi) (items : List (Item K)) (hi' : ∀ i ∈ items, i.ok lo hi) :
    (items ≠ [] → Hull (items.foldl BBox.enclose (.none lo hi)) (fun p => ∃ i ∈ items, i.pts p)) ∧
    (items = [] → ∀ p, ¬ InBox (items.foldl BBox.enclose (.none lo hi)) p) ∧
    ∀ p, InBox (items.foldl BBox.enclose (.none lo hi)) p → (items.foldl BBox.enclose (.none lo hi)).empty = false := by
  have h2 : items = [] → ∀ p, ¬ InBox (items.foldl BBox.enclose (.none lo hi)) p := by
    rintro rfl p ⟨h1, h2, _⟩
    exact absurd (le_trans h1 h2) (not_le.2 hl)
  refine ⟨fun hne => ?_, h2, fun p hp => ?_⟩
  · cases items with
    | nil => exact absurd rfl hne
    | cons i items =>
      obtain ⟨⟨p, hp⟩, f1, f2⟩ := ok_toBox (hi' i (by simp))
      rw [List.foldl_cons, enclose_toBox, enclose_none f1 f2]
      have := hull_fold (items := items) (hull_self (b := i.toBox)) ⟨p, hp⟩ (fun j hj => by
        obtain ⟨⟨q, hq⟩, _⟩ := ok_toBox (hi' j (by simp [hj]))
        exact ⟨q, toBox_pts.1 hq⟩)
      refine hull_congr this fun q => ?_
      simp [toBox_pts]
  · obtain ⟨a1, a2, a3, a4, a5, a6⟩ := hp
    unfold BBox.empty
    simp [not_lt.2 (le_trans a1 a2), not_lt.2 (le_trans a3 a4), not_lt.2 (le_trans a5 a6)]

/-- Enclosing a default box changes nothing, and `empty` tells whether a box has points. -/
theorem C72_empty {lo hi : K} {c : BBox K} :
    (c.min.fits lo hi → c.max.fits lo hi → c.encloseBox (.none lo hi) = c) ∧ (c.empty = false ↔ ∃ p, InBox c p) := by
  refine ⟨enclose_by_none, ?_⟩
  unfold BBox.empty
  simp only [Bool.or_eq_false_iff, decide_eq_false_iff_not, not_lt]
  constructor
  · intro ⟨⟨h1, h2⟩, h3⟩
    exact ⟨c.min, le_refl _, h1, le_refl _, h2, le_refl _, h3⟩
  · rintro ⟨p, h1, h2, h3, h4, h5, h6⟩
    exact ⟨⟨le_trans h1 h2, le_trans h3 h4⟩, le_trans h5 h6⟩

end

section
variable {K : Type} [Field K] [LinearOrder K] [IsStrictOrderedRing K]

/-- For every matrix the transformed box is the smallest one containing the images of the points of a nonempty box. -/
theorem C72_transform (b : BBox K) (hb : b.empty = false) (T : Mat4 K) :
    Hull (b.transform T) (fun q => ∃ p, InBox b p ∧ q = affine T p) := by
  obtain ⟨p0, a1, a2, a3, a4, a5, a6⟩ := (C72_empty (lo := (0 : K)) (hi := 0)).2.1 hb
  have hb' : b.min.x ≤ b.max.x ∧ b.min.y ≤ b.max.y ∧ b.min.z ≤ b.max.z := ⟨le_trans a1 a2, le_trans a3 a4, le_trans a5 a6⟩
  obtain ⟨x1, ⟨px, hpx, ex⟩, ⟨qx, hqx, fx⟩⟩ := axis_bounds (t0 := T.c0.x) (t1 := T.c1.x) (t2 := T.c2.x) (t3 := T.c3.x) hb'
  obtain ⟨y1, ⟨py, hpy, ey⟩, ⟨qy, hqy, fy⟩⟩ := axis_bounds (t0 := T.c0.y) (t1 := T.c1.y) (t2 := T.c2.y) (t3 := T.c3.y) hb'
  obtain ⟨z1, ⟨pz, hpz, ez⟩, ⟨qz, hqz, fz⟩⟩ := axis_bounds (t0 := T.c0.z) (t1 := T.c1.z) (t2 := T.c2.z) (t3 := T.c3.z) hb'
  refine ⟨?_, fun c hc p hp => ?_⟩
  · rintro q ⟨p, hp, rfl⟩
    exact ⟨(x1 p hp).1, (x1 p hp).2, (y1 p hp).1, (y1 p hp).2, (z1 p hp).1, (z1 p hp).2⟩
  · obtain ⟨p1, p2, p3, p4, p5, p6⟩ := hp
    have c1 := (hc _ ⟨px, hpx, rfl⟩).1
    have c2 := (hc _ ⟨qx, hqx, rfl⟩).2.1
    have c3 := (hc _ ⟨py, hpy, rfl⟩).2.2.1
    have c4 := (hc _ ⟨qy, hqy, rfl⟩).2.2.2.1
    have c5 := (hc _ ⟨pz, hpz, rfl⟩).2.2.2.2.1
    have c6 := (hc _ ⟨qz, hqz, rfl⟩).2.2.2.2.2
    refine ⟨le_trans c1 (le_trans (le_of_eq ex.symm) p1), le_trans p2 (le_trans (le_of_eq fx) c2),
      le_trans c3 (le_trans (le_of_eq ey.symm) p3), le_trans p4 (le_trans (le_of_eq fy) c4),
      le_trans c5 (le_trans (le_of_eq ez.symm) p5), le_trans p6 (le_trans (le_of_eq fz) c6)⟩

/-- The image meant is that of `operator*`. -/
theorem C72_image (T : Mat4 K) (p : V3 K) : T.mulV3 p = affine T p := mulV3_affine T p

/-- The center of a nonempty box is in it, halfway between its ends; the surface area is that of the six sides. -/
theorem C72_center (b : BBox K) (hb : b.empty = false) :
    InBox b b.center ∧ b.center.x - b.min.x = b.max.x - b.center.x ∧ b.center.y - b.min.y = b.max.y - b.center.y ∧
    b.center.z - b.min.z = b.max.z - b.center.z ∧
    b.surface_area = 2 * ((b.max.x - b.min.x) * (b.max.y - b.min.y)) + 2 * ((b.max.y - b.min.y) * (b.max.z - b.min.z)) +
      2 * ((b.max.z - b.min.z) * (b.max.x - b.min.x)) := by
  obtain ⟨p0, a1, a2, a3, a4, a5, a6⟩ := (C72_empty (lo := (0 : K)) (hi := 0)).2.1 hb
  have hx := le_trans a1 a2
  have hy := le_trans a3 a4
  have hz := le_trans a5 a6
  have h2 : (2 : K) ≠ 0 := two_ne_zero
  have e : ∀ l h : K, (l + h) * 2⁻¹ * 2 = l + h := fun l h => by field_simp
  have k : ∀ l h : K, l ≤ h → l ≤ (l + h) * 2⁻¹ ∧ (l + h) * 2⁻¹ ≤ h ∧ (l + h) * 2⁻¹ - l = h - (l + h) * 2⁻¹ := by
    intro l h hl
    have := e l h
    exact ⟨by linarith, by linarith, by linarith⟩
  refine ⟨⟨?_, ?_, ?_, ?_, ?_, ?_⟩, ?_, ?_, ?_, ?_⟩
  · exact (k _ _ hx).1
  · exact (k _ _ hx).2.1
  · exact (k _ _ hy).1
  · exact (k _ _ hy).2.1
  · exact (k _ _ hz).1
  · exact (k _ _ hz).2.1
  · exact (k _ _ hx).2.2
  · exact (k _ _ hy).2.2
  · exact (k _ _ hz).2.2
  · simp only [BBox.surface_area, hb, Bool.false_eq_true, if_false, V3.sub]
    ring

end

/-- A box turned by a quarter turn about z. -/
example : (BBox.mk ⟨1, 0, 0⟩ ⟨3, 1, 1⟩ : BBox ℚ).transform ⟨⟨0, 1, 0, 0⟩, ⟨-1, 0, 0, 0⟩, ⟨0, 0, 1, 0⟩, ⟨5, 0, 0, 1⟩⟩ =
    ⟨⟨4, 1, 0⟩, ⟨5, 3, 1⟩⟩ := by decide +kernel

/-! ## C90: `Mat4::proj` -/

section
variable {K : Type} [Field K]

/-- A point at depth `z` of view space is projected to `x / (-z tan ar)`, `-y / (-z tan)` with depth `n / (-z)`: the
edges of the field of view land on the edges of the screen, and the near plane at depth 1. `tan` is the tangent of half
the field of view. -/
theorem C90_proj {tan ar n : K} (ht : tan ≠ 0) (ha : ar ≠ 0) (p : V3 K) (hz : p.z ≠ 0) :
    screen (Mat4.proj tan ar n) p = (p.x / (-p.z * tan * ar), -p.y / (-p.z * tan)) ∧
    ((Mat4.proj tan ar n).mulV4 (.ofV3 p 1)).z / ((Mat4.proj tan ar n).mulV4 (.ofV3 p 1)).w = n / -p.z ∧
    (p.y = -p.z * tan → (screen (Mat4.proj tan ar n) p).2 = -1) ∧
    (p.x = -p.z * tan * ar → (screen (Mat4.proj tan ar n) p).1 = 1) ∧
    (p.z = -n → ((Mat4.proj tan ar n).mulV4 (.ofV3 p 1)).z / ((Mat4.proj tan ar n).mulV4 (.ofV3 p 1)).w = 1) := by
  have hs : screen (Mat4.proj tan ar n) p = (p.x / (-p.z * tan * ar), -p.y / (-p.z * tan)) := by
    have hz' : -p.z ≠ 0 := neg_ne_zero.2 hz
    simp only [screen, Mat4.proj, Prod.mk.injEq, zero_mul, zero_add, add_zero, neg_one_mul, neg_mul]
    constructor
    · field_simp
    · field_simp
  have hd : ((Mat4.proj tan ar n).mulV4 (.ofV3 p 1)).z / ((Mat4.proj tan ar n).mulV4 (.ofV3 p 1)).w = n / -p.z := by
    simp [Mat4.proj, Mat4.mulV4, Mat4.col, V4.ofV3, V4.add, V4.mul, V4.set1]
  refine ⟨hs, hd, fun h => ?_, fun h => ?_, fun h => ?_⟩
  · rw [hs, h]; field_simp
  · rw [hs, h]; field_simp
  · rw [hd, h, neg_neg]
    exact div_self (by intro e; rw [e] at h; exact hz (by rw [h, neg_zero]))

end

example : screen (Mat4.proj 1 2 1 : Mat4 ℚ) ⟨4, 2, -4⟩ = (1 / 2, -1 / 2) := by decide +kernel

/-! ## C91: transforming an empty box

Full statement: a box without points has none after `transform`, and one with points keeps some. -/

/-- Boxes with points keep some. `_partial`: see `C91_false`. -/
theorem C91_nonempty_partial {K : Type} [Field K] [LinearOrder K] [IsStrictOrderedRing K] (b : BBox K) (hb : b.empty = false)
    (T : Mat4 K) : (b.transform T).empty = false := by
  obtain ⟨p, hp⟩ := (C72_empty (lo := (0 : K)) (hi := 0)).2.1 hb
  exact (C72_empty (lo := (0 : K)) (hi := 0)).2.2 ⟨_, (C72_transform b hb T).1 _ ⟨p, hp, rfl⟩⟩

/-- The identity turns the default box, which has no points, into the box of everything. -/
theorem C91_everything {K : Type} [Field K] [LinearOrder K] [IsStrictOrderedRing K] {lo hi : K} (h : lo < hi) :
    (BBox.none lo hi).transform Mat4.I = ⟨⟨lo, lo, lo⟩, ⟨hi, hi, hi⟩⟩ := by
  have e1 : transformStep (1 : K) hi lo (0, 0) = (lo, hi) := by simp [transformStep, not_lt.2 (le_of_lt h)]
  have e2 : ∀ r : K × K, transformStep (0 : K) hi lo r = r := fun r => by simp [transformStep]
  simp [BBox.transform, BBox.none, transformAxis, Mat4.I, e1, e2]

/-- The property is false. -/
theorem C91_false : (BBox.none (-1000) 1000 : BBox ℚ).empty = true ∧
    ((BBox.none (-1000) 1000 : BBox ℚ).transform Mat4.I).empty = false ∧
    InBox ((BBox.none (-1000) 1000 : BBox ℚ).transform Mat4.I) ⟨0, 0, 0⟩ := by
  unfold InBox
  decide +kernel

/-! ## C92: `project`

Full statement: `project` gives a screen rectangle containing the image of every point of the box that is in front of the
camera, the image under a projective matrix dividing by the fourth coordinate. -/

/-- Right for affine matrices (orthographic projections) and boxes with all corners in front: the smallest such
rectangle. `_partial`: perspective matrices, see `C92_false`. -/
theorem C92_project_partial {K : Type} [Field K] [LinearOrder K] [IsStrictOrderedRing K] {lo hi : K} (b : BBox K)
    (T : Mat4 K) (ha : T.c0.w = 0 ∧ T.c1.w = 0 ∧ T.c2.w = 0 ∧ T.c3.w = 1)
    (hf : ∀ v ∈ b.corners, 0 ≤ (affine T v).z) :
    ∃ x0 y0 x1 y1, b.project lo hi T = (x0, y0, x1, y1) ∧
      (∀ p, InBox b p → x0 ≤ (screen T p).1 ∧ (screen T p).1 ≤ x1 ∧ y0 ≤ (screen T p).2 ∧ (screen T p).2 ≤ y1) ∧
      ∀ u0 v0 u1 v1, u0 ≤ hi → v0 ≤ hi → lo ≤ u1 → lo ≤ v1 →
        (∀ p ∈ b.corners, u0 ≤ (screen T p).1 ∧ (screen T p).1 ≤ u1 ∧ v0 ≤ (screen T p).2 ∧ (screen T p).2 ≤ v1) →
        u0 ≤ x0 ∧ x1 ≤ u1 ∧ v0 ≤ y0 ∧ y1 ≤ v1 := by
  have hs : ∀ p, screen T p = ((affine T p).x, (affine T p).y) := by
    intro p
    simp [screen, affine, ha.1, ha.2.1, ha.2.2.1, ha.2.2.2]
  obtain ⟨h1, _, h3, h4, h5, h6, h7, h8⟩ := proj_fold (T := T) (vs := b.corners) (s := ⟨hi, hi, lo, lo, false, true⟩)
  have hm : (⟨b.min.x, b.min.y, b.min.z⟩ : V3 K) ∈ b.corners := by simp [BBox.corners]
  unfold BBox.project
  dsimp only
  generalize b.corners.foldl (projStep T) ⟨hi, hi, lo, lo, false, true⟩ = r at *
  have hp : r.part = false := by
    rw [Bool.eq_false_iff]
    intro hc
    rcases h7.1 hc with h | ⟨v, hv, hz⟩
    · cases h
    · rw [mulV3_affine] at hz
      exact absurd hz (not_lt.2 (hf v hv))
  have hal : r.all = false := by
    rw [Bool.eq_false_iff]
    intro hc
    have := (h8.1 hc).2 _ hm
    rw [mulV3_affine] at this
    exact absurd this (not_lt.2 (hf _ hm))
  simp only [mulV3_affine] at h1 h3 h4 h5 h6
  refine ⟨r.minx, r.miny, r.maxx, r.maxy, by simp [hp, hal], fun p hp => ?_, fun u0 v0 u1 v1 hu0 hv0 hu1 hv1 hc => ?_⟩
  · rw [hs]
    obtain ⟨⟨v, hv, ev⟩, w, hw, ew⟩ := corner_bounds (t0 := T.c0.x) (t1 := T.c1.x) (t2 := T.c2.x) (t3 := T.c3.x) hp
    obtain ⟨⟨v', hv', ev'⟩, w', hw', ew'⟩ := corner_bounds (t0 := T.c0.y) (t1 := T.c1.y) (t2 := T.c2.y) (t3 := T.c3.y) hp
    exact ⟨le_trans (h1 v hv).1 ev, le_trans ew (h1 w hw).2.2.1, le_trans (h1 v' hv').2.1 ev', le_trans ew' (h1 w' hw').2.2.2⟩
  · simp only [hs] at hc
    exact ⟨h3 u0 hu0 fun v hv => (hc v hv).1, h5 u1 hu1 fun v hv => (hc v hv).2.1, h4 v0 hv0 fun v hv => (hc v hv).2.2.1,
      h6 v1 hv1 fun v hv => (hc v hv).2.2.2⟩

/-- Whatever the matrix: with corners on both sides the rectangle is the whole screen, which has in it what is seen of the box; with all
corners behind it is a point. -/
theorem C92_behind {K : Type} [Field K] [LinearOrder K] [IsStrictOrderedRing K] {lo hi : K} (b : BBox K) (T : Mat4 K) :
    ((∃ v ∈ b.corners, (affine T v).z < 0) → (∃ v ∈ b.corners, 0 ≤ (affine T v).z) → b.project lo hi T = (-1, -1, 1, 1)) ∧
    ((∀ v ∈ b.corners, (affine T v).z < 0) → b.project lo hi T = (0, 0, 0, 0)) := by
  obtain ⟨-, -, -, -, -, -, h7, h8⟩ := proj_fold (T := T) (vs := b.corners) (s := ⟨hi, hi, lo, lo, false, true⟩)
  simp only [mulV3_affine] at h7 h8
  unfold BBox.project
  dsimp only
  generalize b.corners.foldl (projStep T) ⟨hi, hi, lo, lo, false, true⟩ = r at *
  refine ⟨fun h1 ⟨v, hv, h2⟩ => ?_, fun h => ?_⟩
  · have ha : r.all = false := by
      rw [Bool.eq_false_iff]
      exact fun hc => absurd ((h8.1 hc).2 v hv) (not_lt.2 h2)
    simp [h7.2 (.inr h1), ha]
  · simp [h8.2 ⟨trivial, h⟩]

/-- A box around the camera of an orthographic view. -/
example : (BBox.mk ⟨0, 0, -1⟩ ⟨1, 2, 3⟩ : BBox ℚ).project (-1000) 1000 (Mat4.translate ⟨5, 5, 0⟩) = (-1, -1, 1, 1) := by decide +kernel

/-- The property is false for `Mat4::proj`: the single point `(1, 1, -2)` is seen at `(1/2, -1/2)`, the rectangle is the
point `(1, -1)`; and a box behind the camera is treated as if it were in front of it. -/
theorem C92_false :
    screen (Mat4.proj 1 1 1 : Mat4 ℚ) ⟨1, 1, -2⟩ = (1 / 2, -1 / 2) ∧
    (BBox.mk ⟨1, 1, -2⟩ ⟨1, 1, -2⟩ : BBox ℚ).project (-1000) 1000 (Mat4.proj 1 1 1) = (1, -1, 1, -1) ∧
    (BBox.mk ⟨1, 1, 2⟩ ⟨1, 1, 2⟩ : BBox ℚ).project (-1000) 1000 (Mat4.proj 1 1 1) = (1, -1, 1, -1) := by decide +kernel

example : (BBox.mk ⟨0, 0, 0⟩ ⟨1, 2, 3⟩ : BBox ℚ).project (-1000) 1000 (Mat4.translate ⟨5, 5, 1⟩) = (5, 5, 6, 7) := by decide +kernel

end Rpp.Props
