import Verif.Proof.BBoxRounded
import Verif.Props.Rounded

/-!
# C169: bounding boxes with rounding

Full statement: in floating point, as in exact numbers, the center of a box is in it, and the transformed box contains the transformed points
of the box.
-/

namespace Rpp.Props
open Rpp.VMath Rpp.Spec

variable {p : Nat}

/-- The center of a nonempty box is in it. `_partial`: without limits of the exponent, see `C169_center_false`. -/
theorem C169_center_partial (hp : 1 ≤ p) (b : BBox (Fl p)) (hf : FloatBox b) (hb : b.empty = false) : Holds b (comp3 b.center) := by
  have h := not_empty_iff.1 hb
  intro i
  fin_cases i
  · exact center_one hp (hf 0).1 (hf 0).2 (h 0)
  · exact center_one hp (hf 1).1 (hf 1).2 (h 1)
  · exact center_one hp (hf 2).1 (hf 2).2 (h 2)

/-- With numbers above half of the largest the sum overflows: the center of a box of one point is infinitely far from it. -/
theorem C169_center_false : let m : F32 := Ieee.F.fin (2 ^ 127)
    (BBox.mk ⟨m, m, m⟩ ⟨m, m, m⟩ : BBox F32).center = ⟨Ieee.F.inf false, Ieee.F.inf false, Ieee.F.inf false⟩ := by
  decide +kernel

/-- The surface area is off by at most five roundings, relative to the area itself, and never negative. -/
theorem C169_area (hp : 1 ≤ p) (b : BBox (Fl p)) :
    0 ≤ b.surface_area.val ∧ (b.empty = true → b.surface_area.val = 0) ∧
    (b.empty = false → |b.surface_area.val - area b| ≤ err p 5 * area b) := by
  rcases he : b.empty
  · have h := not_empty_iff.1 he
    have e : b.surface_area = (2 : Fl p) * ((b.max.x - b.min.x) * (b.max.z - b.min.z) + (b.max.x - b.min.x) * (b.max.y - b.min.y) +
        (b.max.y - b.min.y) * (b.max.z - b.min.z)) := by
      simp [BBox.surface_area, he, V3.sub]
    obtain ⟨h1, h2⟩ := area_near hp (h 0) (h 1) (h 2)
    rw [e]
    refine ⟨h1, by simp, fun _ => ?_⟩
    exact (h2.cast (by simp only [area, comp3]; ring) (by simp only [area, comp3]; ring)).close
  · have e : b.surface_area = 0 := by simp [BBox.surface_area, he]
    rw [e]
    exact ⟨le_refl _, fun _ => rfl, by simp⟩

/-- The transformed box, made larger by four roundings of the terms, contains the exact image of each point of the box (and by seven the rounded
image). `_partial`: without making it larger it does not, see `C169_transform_false`. -/
theorem C169_transform_partial (hp : 1 ≤ p) (b : BBox (Fl p)) (T : Mat4 (Fl p)) (i : Fin 3) :
    (∀ x, Holds b x → comp3 (b.transform T).min i - err p 4 * reach b T i ≤ image T x i ∧
      image T x i ≤ comp3 (b.transform T).max i + err p 4 * reach b T i) ∧
    (∀ v, Holds b (comp3 v) →
      comp3 (b.transform T).min i - (err p 3 + err p 4) * reach b T i ≤ comp3 (T.mulV3 v) i ∧
      comp3 (T.mulV3 v) i ≤ comp3 (b.transform T).max i + (err p 3 + err p 4) * reach b T i) := by
  have key : ∀ x, Holds b x → comp3 (b.transform T).min i - err p 4 * reach b T i ≤ image T x i ∧
      image T x i ≤ comp3 (b.transform T).max i + err p 4 * reach b T i := by
    intro x hx
    unfold reach image
    rw [Fin.sum_univ_three, Fin.sum_univ_three]
    fin_cases i
    · obtain ⟨h1, h2⟩ := axis_near hp T.c0.x T.c1.x T.c2.x T.c3.x b.min b.max (hx 0) (hx 1) (hx 2)
      exact ⟨le_trans (le_of_eq (by rw [← terms_comm]; rfl)) h1, le_trans h2 (le_of_eq (by rw [terms_comm]; rfl))⟩
    · obtain ⟨h1, h2⟩ := axis_near hp T.c0.y T.c1.y T.c2.y T.c3.y b.min b.max (hx 0) (hx 1) (hx 2)
      exact ⟨le_trans (le_of_eq (by rw [← terms_comm]; rfl)) h1, le_trans h2 (le_of_eq (by rw [terms_comm]; rfl))⟩
    · obtain ⟨h1, h2⟩ := axis_near hp T.c0.z T.c1.z T.c2.z T.c3.z b.min b.max (hx 0) (hx 1) (hx 2)
      exact ⟨le_trans (le_of_eq (by rw [← terms_comm]; rfl)) h1, le_trans h2 (le_of_eq (by rw [terms_comm]; rfl))⟩
  refine ⟨key, fun v hv => ?_⟩
  have k := key _ hv
  have c := (C166_points T v i).1
  have hm : ∑ j : Fin 3, |entry T i.castSucc j.castSucc * comp3 v j| + |entry T i.castSucc 3| ≤ reach b T i := by
    unfold reach
    refine add_le_add (Finset.sum_le_sum fun j _ => ?_) (le_refl _)
    rw [abs_mul]
    exact mul_le_mul_of_nonneg_left (abs_le_max_abs_abs (hv j).1 (hv j).2) (abs_nonneg _)
  have c' := abs_le.1 (c.trans (mul_le_mul_of_nonneg_left hm (err_nonneg p 3)))
  unfold image at k
  rw [add_mul]
  exact ⟨by linarith [k.1, c'.1], by linarith [k.2, c'.2]⟩

/-- Rounded in the order of `transform`, the image of each point of the box is in the transformed box. -/
theorem C169_order (hp : 1 ≤ p) (b : BBox (Fl p)) (T : Mat4 (Fl p)) (v : V3 (Fl p)) (hv : Holds b (comp3 v)) :
    Holds (b.transform T) (comp3 (fromLeft T v)) := by
  intro i
  fin_cases i <;> exact axis_mono hp (hv 0) (hv 1) (hv 2)

/-- `operator*` adds in another order: of the unit cube moved by 2^24 and sheared, the point (1, 1, 0) is at 2^24 + 2, and the box ends at
2^24. -/
theorem C169_transform_false :
    let b : BBox (Fl 24) := ⟨⟨⟨0⟩, ⟨0⟩, ⟨0⟩⟩, ⟨⟨1⟩, ⟨1⟩, ⟨1⟩⟩⟩
    let T : Mat4 (Fl 24) := ⟨⟨1, 0, 0, 0⟩, ⟨1, 1, 0, 0⟩, ⟨0, 0, 1, 0⟩, ⟨⟨16777216⟩, 0, 0, 1⟩⟩
    FloatBox b ∧ T.Floats ∧ Holds b (comp3 (⟨⟨1⟩, ⟨1⟩, ⟨0⟩⟩ : V3 (Fl 24))) ∧ comp3 (T.mulV3 ⟨⟨1⟩, ⟨1⟩, ⟨0⟩⟩) 0 = 16777218 ∧
    comp3 (b.transform T).max 0 = 16777216 ∧ ¬ Holds (b.transform T) (comp3 (T.mulV3 ⟨⟨1⟩, ⟨1⟩, ⟨0⟩⟩)) := by
  intro b T
  refine ⟨?_, ?_, ?_, ?_, ?_, ?_⟩
  · intro i
    fin_cases i <;> exact ⟨⟨0, 0, by norm_num, by norm_num [b, comp3]⟩, ⟨1, 0, by norm_num, by norm_num [b, comp3]⟩⟩
  · intro i j
    have h0 : IsFloat 24 0 := ⟨0, 0, by norm_num, by norm_num⟩
    have h1 : IsFloat 24 1 := ⟨1, 0, by norm_num, by norm_num⟩
    have h2 : IsFloat 24 16777216 := ⟨1, 24, by norm_num, by norm_num⟩
    fin_cases i <;> fin_cases j <;> first | exact h0 | exact h1 | exact h2
  · intro i
    fin_cases i <;> simp [b, comp3]
  · decide +kernel
  · decide +kernel
  · intro h
    have h1 : comp3 (T.mulV3 ⟨⟨1⟩, ⟨1⟩, ⟨0⟩⟩) 0 = 16777218 := by decide +kernel
    have h2 : comp3 (b.transform T).max 0 = 16777216 := by decide +kernel
    have := (h 0).2
    rw [h1, h2] at this
    norm_num at this

/-- `project` uses `operator*` for the corners: where none is behind the camera, the rounded images of all points of the box are in the
rectangle, whose edges are images of corners (or the limits it begins with). -/
theorem C169_project (hp : 1 ≤ p) (lo hi : Fl p) (b : BBox (Fl p)) (T : Mat4 (Fl p))
    (hf : ∀ c ∈ b.corners, 0 ≤ (T.mulV3 c).z.val) :
    ∃ x0 y0 x1 y1, b.project lo hi T = (x0, y0, x1, y1) ∧
      (∀ v, Holds b (comp3 v) → x0.val ≤ (T.mulV3 v).x.val ∧ (T.mulV3 v).x.val ≤ x1.val ∧ y0.val ≤ (T.mulV3 v).y.val ∧
        (T.mulV3 v).y.val ≤ y1.val) ∧
      ∀ u0 v0 u1 v1 : Fl p, u0.val ≤ hi.val → v0.val ≤ hi.val → lo.val ≤ u1.val → lo.val ≤ v1.val →
        (∀ c ∈ b.corners, u0.val ≤ (T.mulV3 c).x.val ∧ (T.mulV3 c).x.val ≤ u1.val ∧ v0.val ≤ (T.mulV3 c).y.val ∧
          (T.mulV3 c).y.val ≤ v1.val) →
        u0.val ≤ x0.val ∧ x1.val ≤ u1.val ∧ v0.val ≤ y0.val ∧ y1.val ≤ v1.val := by
  obtain ⟨h1, _, h3, h4, h5, h6, h7, h8⟩ := proj_fold (T := T) (vs := b.corners) (s := ⟨hi, hi, lo, lo, false, true⟩)
  have hm : (⟨b.min.x, b.min.y, b.min.z⟩ : V3 (Fl p)) ∈ b.corners := by simp [BBox.corners]
  unfold BBox.project
  dsimp only
  generalize b.corners.foldl (projStep T) ⟨hi, hi, lo, lo, false, true⟩ = r at *
  have hp' : r.part = false := by
    rw [Bool.eq_false_iff]
    intro h
    rcases h7.1 h with h | ⟨c, hc, h⟩
    · cases h
    · exact absurd (fl_lt.1 h) (not_lt.2 (hf c hc))
  have ha : r.all = false := by
    rw [Bool.eq_false_iff]
    intro h
    exact absurd (fl_lt.1 ((h8.1 h).2 _ hm)) (not_lt.2 (hf _ hm))
  rw [hp', ha]
  refine ⟨r.minx, r.miny, r.maxx, r.maxy, by simp, fun v hv => ?_, fun u0 v0 u1 v1 a1 a2 a3 a4 hc => ?_⟩
  · obtain ⟨⟨c, hc, k⟩, c', hc', k'⟩ := corner_mono hp (t0 := T.c0.x) (t1 := T.c1.x) (t2 := T.c2.x) (t3 := T.c3.x) hv
    obtain ⟨⟨d, hd, l⟩, d', hd', l'⟩ := corner_mono hp (t0 := T.c0.y) (t1 := T.c1.y) (t2 := T.c2.y) (t3 := T.c3.y) hv
    exact ⟨le_trans (h1 c hc).1 k, le_trans k' (h1 c' hc').2.2.1, le_trans (h1 d hd).2.1 l, le_trans l' (h1 d' hd').2.2.2⟩
  · exact ⟨h3 u0 a1 fun c h => (hc c h).1, h5 u1 a3 fun c h => (hc c h).2.1, h4 v0 a2 fun c h => (hc c h).2.2.1,
      h6 v1 a4 fun c h => (hc c h).2.2.2⟩

/-- The cube of side 2 about the origin, precision 3, turned and moved. -/
example : let b : BBox (Fl 3) := ⟨⟨⟨-1⟩, ⟨-1⟩, ⟨-1⟩⟩, ⟨⟨1⟩, ⟨1⟩, ⟨1⟩⟩⟩
    let T : Mat4 (Fl 3) := ⟨⟨⟨3/4⟩, ⟨-5/8⟩, 0, 0⟩, ⟨⟨5/8⟩, ⟨3/4⟩, 0, 0⟩, ⟨0, 0, 1, 0⟩, ⟨⟨5⟩, 0, ⟨3⟩, 1⟩⟩
    b.transform T = ⟨⟨⟨7/2⟩, ⟨-3/2⟩, ⟨2⟩⟩, ⟨⟨7⟩, ⟨3/2⟩, ⟨4⟩⟩⟩ ∧ b.surface_area = ⟨24⟩ ∧ b.center = ⟨0, 0, 0⟩ := by
  decide +kernel

/-- The exact image of the corner (-1, -1, 1) has x coordinate 29/8, that of (1, 1, 1) 51/8: the lower end is rounded down to 7/2 and the upper
end up to 7; `project` has no corner behind. -/
example : let b : BBox (Fl 3) := ⟨⟨⟨-1⟩, ⟨-1⟩, ⟨-1⟩⟩, ⟨⟨1⟩, ⟨1⟩, ⟨1⟩⟩⟩
    let T : Mat4 (Fl 3) := ⟨⟨⟨3/4⟩, ⟨-5/8⟩, 0, 0⟩, ⟨⟨5/8⟩, ⟨3/4⟩, 0, 0⟩, ⟨0, 0, 1, 0⟩, ⟨⟨5⟩, 0, ⟨3⟩, 1⟩⟩
    (∀ c ∈ b.corners, 0 ≤ (T.mulV3 c).z.val) ∧ b.project ⟨-64⟩ ⟨64⟩ T = (⟨7/2⟩, ⟨-3/2⟩, ⟨6⟩, ⟨3/2⟩) := by
  decide +kernel

/-- The area is rounded: 2 (1 · 5/4 + 5/4 · 7/4 + 7/4 · 1) = 83/8 is found as 10. -/
example : (⟨⟨0, 0, 0⟩, ⟨1, ⟨5/4⟩, ⟨7/4⟩⟩⟩ : BBox (Fl 3)).surface_area = ⟨10⟩ := by decide +kernel

end Rpp.Props
