import Verif.Proof.ProjRounded

/-!
# C179: the perspective projection with rounding
-/

namespace Rpp.Props
open Rpp.VMath Rpp.Spec

variable {p : Nat}

/-- **C179, exact.** Depth and divisor of the clip coordinates are exact. -/
theorem C179_clip (hp : 1 ≤ p) (tan ar n : Fl p) (q : V3 (Fl p)) (hn : IsFloat p n.val) (hz : IsFloat p q.z.val) :
    (clip tan ar n q).z.val = n.val ∧ (clip tan ar n q).w.val = -q.z.val := by
  obtain ⟨-, -, h3, h4⟩ := clip_eq hp tan ar n q
  rw [h3, h4, Angle.round_float hn, Angle.round_float hz]
  exact ⟨rfl, rfl⟩

/-- **C179, screen.** The place on the screen is off by four and three roundings, whatever the distance. -/
theorem C179_screen (hp : 1 ≤ p) (tan ar n : Fl p) (q : V3 (Fl p)) (hn : IsFloat p n.val) (hz : IsFloat p q.z.val)
    (_ht : tan.val ≠ 0) (_ha : ar.val ≠ 0) (_hz : q.z.val ≠ 0) :
    |(clip tan ar n q).proj.x.val - q.x.val / (tan.val * ar.val * -q.z.val)| ≤ err p 4 * |q.x.val / (tan.val * ar.val * -q.z.val)| ∧
    |(clip tan ar n q).proj.y.val - -q.y.val / (tan.val * -q.z.val)| ≤ err p 3 * |q.y.val / (tan.val * -q.z.val)| := by
  obtain ⟨h1, h2, -, -⟩ := clip_eq hp tan ar n q
  obtain ⟨-, h4⟩ := C179_clip hp tan ar n q hn hz
  have hf : Near p 1 (1 / tan).val (1 / tan.val) |1 / tan.val| := by
    have := (Near.exact (p := p) (1 / tan.val)).round
    exact this
  have ha : Near p 2 (1 / tan / ar).val (1 / tan.val / ar.val) (|1 / tan.val| / |ar.val|) := hf.div
  have hx : Near p 3 (clip tan ar n q).x.val (1 / tan.val / ar.val * q.x.val) (|1 / tan.val| / |ar.val| * |q.x.val|) := by
    rw [h1]
    exact (ha.times (Near.exact q.x.val)).round
  have hy : Near p 2 (clip tan ar n q).y.val (-(1 / tan.val) * q.y.val) (|1 / tan.val| * |q.y.val|) := by
    rw [h2]
    exact (hf.neg.times (Near.exact q.y.val)).round
  constructor
  · have := (hx.div (b := (clip tan ar n q).w)).close
    rw [h4] at this
    refine le_of_eq_of_le ?_ (this.trans (le_of_eq ?_))
    · show |((clip tan ar n q).x / (clip tan ar n q).w).val - _| = _
      congr 2
      rw [div_div, div_mul_eq_mul_div, one_mul, div_div]
    · rw [← abs_div, ← abs_mul, ← abs_div]
      congr 2
      rw [div_div, div_mul_eq_mul_div, one_mul, div_div]
  · have := (hy.div (b := (clip tan ar n q).w)).close
    rw [h4] at this
    refine le_of_eq_of_le ?_ (this.trans (le_of_eq ?_))
    · show |((clip tan ar n q).y / (clip tan ar n q).w).val - _| = _
      congr 2
      rw [← neg_div, div_mul_eq_mul_div, div_div, neg_one_mul]
    · rw [← abs_mul, ← abs_div]
      congr 2
      rw [div_mul_eq_mul_div, one_mul, div_div]

/-- **C179, depth.** Points not nearer than the near plane have depths above 0 and up to 1, with the same relative accuracy at all
distances; on the plane the depth is 1. -/
theorem C179_depth (hp : 1 ≤ p) (tan ar n : Fl p) (q : V3 (Fl p)) (hn : IsFloat p n.val) (hz : IsFloat p q.z.val) (h0 : 0 < n.val)
    (hq : n.val ≤ -q.z.val) :
    0 < (clip tan ar n q).proj.z.val ∧ (clip tan ar n q).proj.z.val ≤ 1 ∧
    |(clip tan ar n q).proj.z.val - n.val / -q.z.val| ≤ n.val / -q.z.val / 2 ^ p ∧
    (-q.z.val = n.val → (clip tan ar n q).proj.z.val = 1) := by
  obtain ⟨h3, h4⟩ := C179_clip hp tan ar n q hn hz
  have e : (clip tan ar n q).proj.z.val = Angle.round p (n.val / -q.z.val) := by
    show ((clip tan ar n q).z / (clip tan ar n q).w).val = _
    rw [fl_div, h3, h4]
  have hw : 0 < -q.z.val := by linarith
  have hd : 0 < n.val / -q.z.val := div_pos h0 hw
  rw [e]
  refine ⟨Lerp.round_pos hp hd, ?_, ?_, fun h => ?_⟩
  · have := Angle.round_mono hp ((div_le_one hw).2 hq)
    rwa [Lerp.round_one hp] at this
  · have := Angle.round_err p (n.val / -q.z.val)
    rwa [abs_of_pos hd] at this
  · rw [h, div_self h0.ne', Lerp.round_one hp]

/-- **C179, order.** Of two points the nearer one never has the smaller depth, and has the greater one if the distances differ by more than two
roundings. -/
theorem C179_order (hp : 1 ≤ p) (tan ar n : Fl p) (q r : V3 (Fl p)) (hn : IsFloat p n.val) (hq : IsFloat p q.z.val)
    (hr : IsFloat p r.z.val) (h0 : 0 < n.val) (hq0 : q.z.val < 0) (hqr : r.z.val ≤ q.z.val) :
    (clip tan ar n r).proj.z.val ≤ (clip tan ar n q).proj.z.val ∧
    (-q.z.val * (2 ^ p + 1) < -r.z.val * (2 ^ p - 1) → (clip tan ar n r).proj.z.val < (clip tan ar n q).proj.z.val) := by
  have e : ∀ s : V3 (Fl p), IsFloat p s.z.val → (clip tan ar n s).proj.z.val = Angle.round p (n.val / -s.z.val) := by
    intro s hs
    obtain ⟨h3, h4⟩ := C179_clip hp tan ar n s hn hs
    show ((clip tan ar n s).z / (clip tan ar n s).w).val = _
    rw [fl_div, h3, h4]
  rw [e q hq, e r hr]
  have hq1 : 0 < -q.z.val := by linarith
  have hr1 : 0 < -r.z.val := by linarith
  refine ⟨Angle.round_mono hp (div_le_div_of_nonneg_left h0.le hq1 (by linarith)), fun h => ?_⟩
  have dq : 0 < n.val / -q.z.val := div_pos h0 hq1
  have dr : 0 < n.val / -r.z.val := div_pos h0 hr1
  have eq := Angle.round_err p (n.val / -q.z.val)
  have er := Angle.round_err p (n.val / -r.z.val)
  rw [abs_of_pos dq] at eq
  rw [abs_of_pos dr] at er
  have h1 := (abs_le.1 eq).1
  have h2 := (abs_le.1 er).2
  have hP : (0 : Rat) < 2 ^ p := by positivity
  have key : n.val / -r.z.val * (1 + 1 / 2 ^ p) < n.val / -q.z.val * (1 - 1 / 2 ^ p) := by
    have e1 : n.val / -r.z.val * (1 + 1 / 2 ^ p) = n.val * (2 ^ p + 1) / (-r.z.val * 2 ^ p) := by field_simp
    have e2 : n.val / -q.z.val * (1 - 1 / 2 ^ p) = n.val * (2 ^ p - 1) / (-q.z.val * 2 ^ p) := by field_simp
    rw [e1, e2, div_lt_div_iff₀ (by positivity) (by positivity)]
    have := mul_lt_mul_of_pos_left h (mul_pos h0 hP)
    nlinarith
  have a1 : n.val / -r.z.val * (1 + 1 / 2 ^ p) = n.val / -r.z.val + n.val / -r.z.val / 2 ^ p := by ring
  have a2 : n.val / -q.z.val * (1 - 1 / 2 ^ p) = n.val / -q.z.val - n.val / -q.z.val / 2 ^ p := by ring
  linarith

/-- Nearer than that they may have the same depth: two distances next to each other. -/
theorem C179_close : (clip (1 : Fl 24) 1 1 ⟨0, 0, ⟨-16777214⟩⟩).proj.z = (clip (1 : Fl 24) 1 1 ⟨0, 0, ⟨-16777215⟩⟩).proj.z := by
  decide +kernel

/-- A point ten times as far as the plane, and one a little behind it. -/
example : (clip (1 : Fl 24) 2 1 ⟨⟨4⟩, ⟨5⟩, ⟨-10⟩⟩).proj.y = ⟨-1 / 2⟩ ∧ (clip (1 : Fl 24) 2 1 ⟨⟨4⟩, ⟨5⟩, ⟨-10⟩⟩).proj.z.val < 1 / 9 ∧
    (10 : Rat) * (2 ^ 24 + 1) < 11 * (2 ^ 24 - 1) := by
  decide +kernel

end Rpp.Props
