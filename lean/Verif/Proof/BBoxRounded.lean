import Verif.Spec.BBoxRounded
import Verif.Proof.Rounded
import Verif.Proof.BBox

/-! Boxes of rounded numbers. -/

namespace Rpp.VMath
open Rpp.Angle Rpp.Lerp Rpp.Spec

variable {p n : Nat}

theorem fl_le {a b : Fl p} : a ≤ b ↔ a.val ≤ b.val := Iff.rfl
theorem fl_lt {a b : Fl p} : a < b ↔ a.val < b.val := Iff.rfl

theorem add_mono (hp : 1 ≤ p) {a b c d : Fl p} (h : a.val ≤ b.val) (h' : c.val ≤ d.val) : (a + c).val ≤ (b + d).val :=
  round_mono hp (add_le_add h h')

/-- The products the step adds. -/
theorem step_eq (hp : 1 ≤ p) (t a b : Fl p) (r : Fl p × Fl p) :
    transformStep t a b r = (r.1 + ⟨round p (min (t.val * a.val) (t.val * b.val))⟩, r.2 + ⟨round p (max (t.val * a.val) (t.val * b.val))⟩) := by
  unfold transformStep
  dsimp only
  have ha : t * a = ⟨round p (t.val * a.val)⟩ := rfl
  have hb : t * b = ⟨round p (t.val * b.val)⟩ := rfl
  rw [ha, hb]
  rcases le_total (t.val * a.val) (t.val * b.val) with h | h
  · rw [min_eq_left h, max_eq_right h]
    split
    · rfl
    · next hn =>
      have : round p (t.val * a.val) = round p (t.val * b.val) := le_antisymm (round_mono hp h) (not_lt.1 hn)
      rw [this]
  · rw [min_eq_right h, max_eq_left h]
    split
    · next hn => exact absurd (fl_lt.1 hn) (not_lt.2 (round_mono hp h))
    · rfl

theorem between {t a b x : Rat} (h1 : a ≤ x) (h2 : x ≤ b) : min (t * a) (t * b) ≤ t * x ∧ t * x ≤ max (t * a) (t * b) := by
  rcases le_total 0 t with ht | ht
  · exact ⟨(min_le_left _ _).trans (mul_le_mul_of_nonneg_left h1 ht), (mul_le_mul_of_nonneg_left h2 ht).trans (le_max_right _ _)⟩
  · exact ⟨(min_le_right _ _).trans (mul_le_mul_of_nonpos_left h2 ht), (mul_le_mul_of_nonpos_left h1 ht).trans (le_max_left _ _)⟩

theorem step_mono (hp : 1 ≤ p) {t a b x s : Fl p} {r : Fl p × Fl p} (h1 : a.val ≤ x.val) (h2 : x.val ≤ b.val)
    (h : r.1.val ≤ s.val ∧ s.val ≤ r.2.val) :
    (transformStep t a b r).1.val ≤ (s + t * x).val ∧ (s + t * x).val ≤ (transformStep t a b r).2.val := by
  rw [step_eq hp]
  exact ⟨add_mono hp h.1 (round_mono hp (between h1 h2).1), add_mono hp h.2 (round_mono hp (between h1 h2).2)⟩

theorem axis_mono (hp : 1 ≤ p) {t0 t1 t2 t3 : Fl p} {a b v : V3 (Fl p)} (hx : a.x.val ≤ v.x.val ∧ v.x.val ≤ b.x.val)
    (hy : a.y.val ≤ v.y.val ∧ v.y.val ≤ b.y.val) (hz : a.z.val ≤ v.z.val ∧ v.z.val ≤ b.z.val) :
    (transformAxis t0 t1 t2 t3 a b).1.val ≤ (t3 + t0 * v.x + t1 * v.y + t2 * v.z).val ∧
    (t3 + t0 * v.x + t1 * v.y + t2 * v.z).val ≤ (transformAxis t0 t1 t2 t3 a b).2.val :=
  step_mono hp hz.1 hz.2 (step_mono hp hy.1 hy.2 (step_mono hp hx.1 hx.2 ⟨le_refl _, le_refl _⟩))

theorem abs_minmax {t a b : Rat} : |min (t * a) (t * b)| ≤ |t| * max |a| |b| ∧ |max (t * a) (t * b)| ≤ |t| * max |a| |b| := by
  have ha : |t * a| ≤ |t| * max |a| |b| := by
    rw [abs_mul]; exact mul_le_mul_of_nonneg_left (le_max_left _ _) (abs_nonneg t)
  have hb : |t * b| ≤ |t| * max |a| |b| := by
    rw [abs_mul]; exact mul_le_mul_of_nonneg_left (le_max_right _ _) (abs_nonneg t)
  constructor
  · rcases min_choice (t * a) (t * b) with h | h <;> rw [h] <;> assumption
  · rcases max_choice (t * a) (t * b) with h | h <;> rw [h] <;> assumption

theorem Near.grow {r s m m' : Rat} (h : Near p n r s m) (hm : m ≤ m') : Near p n r s m' :=
  ⟨h.close.trans (mul_le_mul_of_nonneg_left hm (err_nonneg p n)), h.le.trans hm⟩

theorem step_near (hp : 1 ≤ p) (hn : 1 ≤ n) {t a b : Fl p} {r : Fl p × Fl p} {l h m : Rat} (h1 : Near p n r.1.val l m)
    (h2 : Near p n r.2.val h m) :
    Near p (n + 1) (transformStep t a b r).1.val (l + min (t.val * a.val) (t.val * b.val)) (m + |t.val| * max |a.val| |b.val|) ∧
    Near p (n + 1) (transformStep t a b r).2.val (h + max (t.val * a.val) (t.val * b.val)) (m + |t.val| * max |a.val| |b.val|) := by
  rw [step_eq hp]
  exact ⟨h1.add (((Near.exact _).round.grow abs_minmax.1).up hn), h2.add (((Near.exact _).round.grow abs_minmax.2).up hn)⟩

/-- Both ends of one axis. -/
theorem axis_near (hp : 1 ≤ p) (t0 t1 t2 t3 : Fl p) (a b : V3 (Fl p)) {x y z : Rat} (hx : a.x.val ≤ x ∧ x ≤ b.x.val)
    (hy : a.y.val ≤ y ∧ y ≤ b.y.val) (hz : a.z.val ≤ z ∧ z ≤ b.z.val) :
    let m := |t3.val| + |t0.val| * max |a.x.val| |b.x.val| + |t1.val| * max |a.y.val| |b.y.val| + |t2.val| * max |a.z.val| |b.z.val|
    (transformAxis t0 t1 t2 t3 a b).1.val - err p 4 * m ≤ t0.val * x + t1.val * y + t2.val * z + t3.val ∧
    t0.val * x + t1.val * y + t2.val * z + t3.val ≤ (transformAxis t0 t1 t2 t3 a b).2.val + err p 4 * m := by
  intro m
  have e := (Near.exact (p := p) t3.val).up (Nat.zero_le 1)
  have s1 := step_near hp (le_refl 1) (t := t0) (a := a.x) (b := b.x) (r := (t3, t3)) e e
  have s2 := step_near hp (by omega) (t := t1) (a := a.y) (b := b.y) s1.1 s1.2
  have s3 := step_near hp (by omega) (t := t2) (a := a.z) (b := b.z) s2.1 s2.2
  have c1 := abs_le.1 s3.1.close
  have c2 := abs_le.1 s3.2.close
  have b1 := between (t := t0.val) hx.1 hx.2
  have b2 := between (t := t1.val) hy.1 hy.2
  have b3 := between (t := t2.val) hz.1 hz.2
  constructor
  · have := c1.2
    unfold transformAxis
    linarith [b1.1, b2.1, b3.1]
  · have := c2.1
    unfold transformAxis
    linarith [b1.2, b2.2, b3.2]

theorem two_inv (hp : 1 ≤ p) : ((2 : Fl p)⁻¹).val = 1 / 2 := by
  have : ((2 : Fl p)⁻¹).val = round p (2 : Rat)⁻¹ := rfl
  rw [this, round_float ?_]
  · norm_num
  · obtain ⟨m, e, hm, h1⟩ := isFloat_one hp
    exact ⟨m, e - 1, hm, by rw [zpow_sub₀ (by norm_num), ← mul_div_assoc, ← h1]; norm_num⟩

theorem center_one (hp : 1 ≤ p) {a b : Fl p} (ha : IsFloat p a.val) (hb : IsFloat p b.val) (h : a.val ≤ b.val) :
    a.val ≤ ((a + b) * (2 : Fl p)⁻¹).val ∧ ((a + b) * (2 : Fl p)⁻¹).val ≤ b.val := by
  have e : ((a + b) * (2 : Fl p)⁻¹).val = round p (round p (a.val + b.val) * (1 / 2)) := by
    rw [← two_inv hp]; rfl
  have la : 2 * a.val ≤ round p (a.val + b.val) := by
    rw [← round_float (isFloat_two_mul ha)]
    exact round_mono hp (by linarith)
  have lb : round p (a.val + b.val) ≤ 2 * b.val := by
    rw [← round_float (isFloat_two_mul hb)]
    exact round_mono hp (by linarith)
  rw [e]
  constructor
  · conv_lhs => rw [← round_float ha]
    exact round_mono hp (by linarith)
  · conv_rhs => rw [← round_float hb]
    exact round_mono hp (by linarith)

theorem terms_comm {a b c d : Rat} : d + a + b + c = a + b + c + d := by ring

/-- Differences, products, and sums without cancellation; doubling is exact. -/
theorem area_near (hp : 1 ≤ p) {a a' b b' c c' : Fl p} (ha : a'.val ≤ a.val) (hb : b'.val ≤ b.val) (hc : c'.val ≤ c.val) :
    let r := (2 : Fl p) * ((a - a') * (c - c') + (a - a') * (b - b') + (b - b') * (c - c'))
    let s := 2 * ((a.val - a'.val) * (c.val - c'.val) + (a.val - a'.val) * (b.val - b'.val) + (b.val - b'.val) * (c.val - c'.val))
    0 ≤ r.val ∧ Near p 5 r.val s s := by
  intro r s
  have d : ∀ {x y : Fl p}, y.val ≤ x.val → Near p 1 (x - y).val (x.val - y.val) (x.val - y.val) ∧ 0 ≤ (x - y).val := fun {x y} h =>
    ⟨((Near.exact (x.val - y.val)).cast rfl (abs_of_nonneg (sub_nonneg.2 h))).round, round_nonneg p (sub_nonneg.2 h)⟩
  have pr : ∀ {x y : Fl p}, 0 ≤ x.val → 0 ≤ y.val → 0 ≤ (x * y).val ∧ 0 ≤ (x + y).val := fun hx hy =>
    ⟨round_nonneg p (mul_nonneg hx hy), round_nonneg p (add_nonneg hx hy)⟩
  have q1 := (d ha).1.mul (d hc).1
  have q2 := (d ha).1.mul (d hb).1
  have q3 := (d hb).1.mul (d hc).1
  have q := (q1.add q2).add (q3.up (by omega : 1 + 1 + 1 ≤ 1 + 1 + 1 + 1))
  have n := (pr (pr (pr (d ha).2 (d hc).2).1 (pr (d ha).2 (d hb).2).1).2 (pr (d hb).2 (d hc).2).1).2
  have e : r.val = 2 * ((a - a') * (c - c') + (a - a') * (b - b') + (b - b') * (c - c')).val :=
    round_float (isFloat_two_mul (round_isFloat hp _))
  refine ⟨by rw [e]; linarith, ?_, ?_⟩
  · rw [e]
    have := q.close
    rw [← mul_sub, abs_mul, abs_of_nonneg (by norm_num : (0 : Rat) ≤ 2)]
    linarith
  · have := q.le
    rw [abs_mul, abs_of_nonneg (by norm_num : (0 : Rat) ≤ 2)]
    linarith

/-- A corner for each end of a coordinate. -/
theorem corner_mono (hp : 1 ≤ p) {t0 t1 t2 t3 : Fl p} {b : BBox (Fl p)} {v : V3 (Fl p)}
    (hv : Holds b (comp3 v)) :
    (∃ c ∈ b.corners, ((t0 * c.x + t1 * c.y) + (t2 * c.z + t3)).val ≤ ((t0 * v.x + t1 * v.y) + (t2 * v.z + t3)).val) ∧
    (∃ c ∈ b.corners, ((t0 * v.x + t1 * v.y) + (t2 * v.z + t3)).val ≤ ((t0 * c.x + t1 * c.y) + (t2 * c.z + t3)).val) := by
  have f : ∀ {t l h x : Fl p}, l.val ≤ x.val → x.val ≤ h.val →
      (∃ u, (u = l ∨ u = h) ∧ (t * u).val ≤ (t * x).val) ∧ ∃ u, (u = l ∨ u = h) ∧ (t * x).val ≤ (t * u).val := by
    intro t l h x a c
    rcases le_total 0 t.val with ht | ht
    · exact ⟨⟨l, .inl rfl, round_mono hp (mul_le_mul_of_nonneg_left a ht)⟩, h, .inr rfl, round_mono hp (mul_le_mul_of_nonneg_left c ht)⟩
    · exact ⟨⟨h, .inr rfl, round_mono hp (mul_le_mul_of_nonpos_left c ht)⟩, l, .inl rfl, round_mono hp (mul_le_mul_of_nonpos_left a ht)⟩
  have g : ∀ {x y z : Fl p}, (x = b.min.x ∨ x = b.max.x) → (y = b.min.y ∨ y = b.max.y) → (z = b.min.z ∨ z = b.max.z) →
      (⟨x, y, z⟩ : V3 (Fl p)) ∈ b.corners := by
    rintro x y z (rfl | rfl) (rfl | rfl) (rfl | rfl) <;> simp [BBox.corners]
  obtain ⟨⟨x, hx, x'⟩, x2, hx2, x2'⟩ := f (t := t0) (hv 0).1 (hv 0).2
  obtain ⟨⟨y, hy, y'⟩, y2, hy2, y2'⟩ := f (t := t1) (hv 1).1 (hv 1).2
  obtain ⟨⟨z, hz, z'⟩, z2, hz2, z2'⟩ := f (t := t2) (hv 2).1 (hv 2).2
  exact ⟨⟨⟨x, y, z⟩, g hx hy hz, add_mono hp (add_mono hp x' y') (add_mono hp z' (le_refl _))⟩,
    ⟨⟨x2, y2, z2⟩, g hx2 hy2 hz2, add_mono hp (add_mono hp x2' y2') (add_mono hp z2' (le_refl _))⟩⟩

theorem not_empty_iff {b : BBox (Fl p)} : b.empty = false ↔ ∀ i, comp3 b.min i ≤ comp3 b.max i := by
  unfold BBox.empty
  simp only [Bool.or_eq_false_iff, decide_eq_false_iff_not, not_lt, fl_le]
  constructor
  · intro ⟨⟨h1, h2⟩, h3⟩ i
    fin_cases i <;> assumption
  · exact fun h => ⟨⟨h 0, h 1⟩, h 2⟩

end Rpp.VMath
