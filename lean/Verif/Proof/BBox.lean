import Verif.Spec.BBoxItems
import Verif.Spec.BBox
import Mathlib.Algebra.Order.Field.Basic
import Mathlib.Tactic.Linarith
import Mathlib.Tactic.Ring

/-! # Helper lemmas: boxes -/

namespace Rpp.VMath

open Rpp.Spec

variable {K : Type} [LinearOrder K]

theorem fmin_le {a b : K} : fmin a b ≤ a ∧ fmin a b ≤ b := by
  unfold fmin
  split
  · rename_i h; exact ⟨le_refl _, le_of_lt h⟩
  · rename_i h; exact ⟨le_of_not_gt h, le_refl _⟩

theorem le_fmin {a b c : K} (h1 : c ≤ a) (h2 : c ≤ b) : c ≤ fmin a b := by
  unfold fmin; split <;> assumption

theorem le_fmax {a b : K} : a ≤ fmax a b ∧ b ≤ fmax a b := by
  unfold fmax
  split
  · rename_i h; exact ⟨le_refl _, le_of_lt h⟩
  · rename_i h; exact ⟨le_of_not_gt h, le_refl _⟩

theorem fmax_le {a b c : K} (h1 : a ≤ c) (h2 : b ≤ c) : fmax a b ≤ c := by
  unfold fmax; split <;> assumption

theorem fmin_eq_right {a b : K} (h : b ≤ a) : fmin a b = b := le_antisymm fmin_le.2 (le_fmin h (le_refl _))
theorem fmax_eq_right {a b : K} (h : a ≤ b) : fmax a b = b := le_antisymm (fmax_le h (le_refl _)) le_fmax.2
theorem fmin_eq_left {a b : K} (h : a ≤ b) : fmin a b = a := le_antisymm fmin_le.1 (le_fmin (le_refl _) h)
theorem fmax_eq_left {a b : K} (h : b ≤ a) : fmax a b = a := le_antisymm (fmax_le (le_refl _) h) le_fmax.1

theorem inBox_min_max {b : BBox K} {p : V3 K} (h : InBox b p) : InBox b b.min ∧ InBox b b.max := by
  obtain ⟨h1, h2, h3, h4, h5, h6⟩ := h
  exact ⟨⟨le_refl _, le_trans h1 h2, le_refl _, le_trans h3 h4, le_refl _, le_trans h5 h6⟩,
    ⟨le_trans h1 h2, le_refl _, le_trans h3 h4, le_refl _, le_trans h5 h6, le_refl _⟩⟩

theorem hull_encloseBox {b c : BBox K} {S : V3 K → Prop} (hb : Hull b S) (hS : ∃ p, S p) (hc : ∃ p, InBox c p) :
    Hull (b.encloseBox c) (fun p => S p ∨ InBox c p) := by
  obtain ⟨p0, hp0⟩ := hS
  obtain ⟨q0, hq0⟩ := hc
  refine ⟨fun p hp => ?_, fun d hd p hp => ?_⟩
  · rcases hp with hp | hp
    · obtain ⟨h1, h2, h3, h4, h5, h6⟩ := hb.1 p hp
      exact ⟨le_trans fmin_le.1 h1, le_trans h2 le_fmax.1, le_trans fmin_le.1 h3, le_trans h4 le_fmax.1,
        le_trans fmin_le.1 h5, le_trans h6 le_fmax.1⟩
    · obtain ⟨h1, h2, h3, h4, h5, h6⟩ := hp
      exact ⟨le_trans fmin_le.2 h1, le_trans h2 le_fmax.2, le_trans fmin_le.2 h3, le_trans h4 le_fmax.2,
        le_trans fmin_le.2 h5, le_trans h6 le_fmax.2⟩
  · have hbd := hb.2 d fun p hp => hd p (.inl hp)
    have e := inBox_min_max (hb.1 p0 hp0)
    obtain ⟨a1, _, a3, _, a5, _⟩ := hbd _ e.1
    obtain ⟨_, a2, _, a4, _, a6⟩ := hbd _ e.2
    have f := inBox_min_max hq0
    obtain ⟨b1, _, b3, _, b5, _⟩ := hd _ (.inr f.1)
    obtain ⟨_, b2, _, b4, _, b6⟩ := hd _ (.inr f.2)
    obtain ⟨p1, p2, p3, p4, p5, p6⟩ := hp
    exact ⟨le_trans (le_fmin a1 b1) p1, le_trans p2 (fmax_le a2 b2), le_trans (le_fmin a3 b3) p3,
      le_trans p4 (fmax_le a4 b4), le_trans (le_fmin a5 b5) p5, le_trans p6 (fmax_le a6 b6)⟩

theorem inBox_point {p q : V3 K} : InBox ⟨p, p⟩ q ↔ q = p := by
  constructor
  · intro ⟨h1, h2, h3, h4, h5, h6⟩
    cases p; cases q
    simp only at *
    simp [le_antisymm h2 h1, le_antisymm h4 h3, le_antisymm h6 h5]
  · rintro rfl; exact ⟨le_refl _, le_refl _, le_refl _, le_refl _, le_refl _, le_refl _⟩

theorem hull_congr {b : BBox K} {S S' : V3 K → Prop} (h : Hull b S) (e : ∀ p, S p ↔ S' p) : Hull b S' :=
  ⟨fun p hp => h.1 p ((e p).2 hp), fun c hc => h.2 c fun p hp => hc p ((e p).1 hp)⟩

theorem hull_self {b : BBox K} : Hull b (InBox b) := ⟨fun _ h => h, fun _ hc p hp => hc p hp⟩

/-- An item as a box. -/
def Item.toBox : Item K → BBox K
  | .point p => ⟨p, p⟩
  | .box b => b

theorem toBox_pts {i : Item K} {p : V3 K} : InBox i.toBox p ↔ i.pts p := by
  cases i with
  | point q => exact inBox_point
  | box b => exact Iff.rfl

theorem enclose_toBox {b : BBox K} {i : Item K} : b.enclose i = b.encloseBox i.toBox := by
  cases i <;> rfl

theorem ok_toBox {lo hi : K} {i : Item K} (h : i.ok lo hi) :
    (∃ p, InBox i.toBox p) ∧ i.toBox.min.fits lo hi ∧ i.toBox.max.fits lo hi := by
  cases i with
  | point p => exact ⟨⟨p, inBox_point.2 rfl⟩, h, h⟩
  | box b =>
    obtain ⟨⟨h1, h2, h3⟩, h4, h5⟩ := h
    exact ⟨⟨b.min, le_refl _, h1, le_refl _, h2, le_refl _, h3⟩, h4, h5⟩

theorem enclose_none {lo hi : K} {c : BBox K} (h1 : c.min.fits lo hi) (h2 : c.max.fits lo hi) :
    (BBox.none lo hi).encloseBox c = c := by
  obtain ⟨⟨a, b, d⟩, ⟨e, f, g⟩⟩ := c
  obtain ⟨_, p1, _, p2, _, p3⟩ := h1
  obtain ⟨q1, _, q2, _, q3, _⟩ := h2
  simp only at *
  simp [BBox.none, BBox.encloseBox, V3.min, V3.max, fmin_eq_right, fmax_eq_right, *]

theorem enclose_by_none {lo hi : K} {c : BBox K} (h1 : c.min.fits lo hi) (h2 : c.max.fits lo hi) :
    c.encloseBox (BBox.none lo hi) = c := by
  obtain ⟨⟨a, b, d⟩, ⟨e, f, g⟩⟩ := c
  obtain ⟨_, p1, _, p2, _, p3⟩ := h1
  obtain ⟨q1, _, q2, _, q3, _⟩ := h2
  simp only at *
  simp [BBox.none, BBox.encloseBox, V3.min, V3.max, fmin_eq_left, fmax_eq_left, *]

/-- Enclosing items one after the other into a box that already is the hull of something. -/
theorem hull_fold : ∀ {items : List (Item K)} {b : BBox K} {S : V3 K → Prop}, Hull b S → (∃ p, S p) →
    (∀ i ∈ items, ∃ p, i.pts p) → Hull (items.foldl BBox.enclose b) (fun p => S p ∨ ∃ i ∈ items, i.pts p)
  | [], b, S, hb, _, _ => hull_congr hb (by simp)
  | i :: items, b, S, hb, hS, hi => by
    obtain ⟨p, hp⟩ := hi i (by simp)
    have h1 : Hull (b.enclose i) (fun p => S p ∨ i.pts p) := by
      rw [enclose_toBox]
      exact hull_congr (hull_encloseBox hb hS ⟨p, toBox_pts.2 hp⟩) fun q => by rw [toBox_pts]
    have h2 := hull_fold (items := items) h1 ⟨p, .inr hp⟩ fun j hj => hi j (by simp [hj])
    refine hull_congr h2 fun q => ?_
    simp [or_assoc]

variable [Field K] [IsStrictOrderedRing K]

/-- One coordinate of a transformed box. -/
theorem step_bounds {t l h : K} {r : K × K} (hlh : l ≤ h) :
    (∀ x, l ≤ x → x ≤ h → (transformStep t l h r).1 ≤ r.1 + t * x ∧ r.2 + t * x ≤ (transformStep t l h r).2) ∧
    (∃ x, (x = l ∨ x = h) ∧ (transformStep t l h r).1 = r.1 + t * x) ∧
    (∃ x, (x = l ∨ x = h) ∧ (transformStep t l h r).2 = r.2 + t * x) := by
  unfold transformStep
  dsimp only
  split
  · rename_i hlt
    refine ⟨fun x h1 h2 => ?_, ⟨l, .inl rfl, rfl⟩, ⟨h, .inr rfl, rfl⟩⟩
    have ht : 0 ≤ t := by
      by_contra hc
      have := mul_le_mul_of_nonpos_left hlh (le_of_lt (not_le.1 hc))
      exact absurd hlt (not_lt.2 this)
    exact ⟨by have := mul_le_mul_of_nonneg_left h1 ht; linarith, by have := mul_le_mul_of_nonneg_left h2 ht; linarith⟩
  · rename_i hge
    refine ⟨fun x h1 h2 => ?_, ⟨h, .inr rfl, rfl⟩, ⟨l, .inl rfl, rfl⟩⟩
    have hge := not_lt.1 hge
    by_cases ht : t ≤ 0
    · exact ⟨by have := mul_le_mul_of_nonpos_left h2 ht; linarith, by have := mul_le_mul_of_nonpos_left h1 ht; linarith⟩
    · have ht := not_le.1 ht
      have : h ≤ l := le_of_mul_le_mul_left hge ht
      have e : x = l := le_antisymm (le_trans h2 this) h1
      have e' : l = h := le_antisymm hlh this
      subst e
      subst e'
      exact ⟨le_refl _, le_refl _⟩

theorem axis_bounds {t0 t1 t2 t3 : K} {b : BBox K} (hb : b.min.x ≤ b.max.x ∧ b.min.y ≤ b.max.y ∧ b.min.z ≤ b.max.z) :
    (∀ p, InBox b p → (transformAxis t0 t1 t2 t3 b.min b.max).1 ≤ t0 * p.x + t1 * p.y + t2 * p.z + t3 ∧
      t0 * p.x + t1 * p.y + t2 * p.z + t3 ≤ (transformAxis t0 t1 t2 t3 b.min b.max).2) ∧
    (∃ p, InBox b p ∧ (transformAxis t0 t1 t2 t3 b.min b.max).1 = t0 * p.x + t1 * p.y + t2 * p.z + t3) ∧
    (∃ p, InBox b p ∧ (transformAxis t0 t1 t2 t3 b.min b.max).2 = t0 * p.x + t1 * p.y + t2 * p.z + t3) := by
  obtain ⟨hx, hy, hz⟩ := hb
  unfold transformAxis
  obtain ⟨x1, x2, x3⟩ := step_bounds (t := t0) (r := (t3, t3)) hx
  obtain ⟨y1, y2, y3⟩ := step_bounds (t := t1) (r := transformStep t0 b.min.x b.max.x (t3, t3)) hy
  obtain ⟨z1, z2, z3⟩ := step_bounds (t := t2) (r := transformStep t1 b.min.y b.max.y (transformStep t0 b.min.x b.max.x (t3, t3))) hz
  refine ⟨fun p hp => ?_, ?_, ?_⟩
  · obtain ⟨p1, p2, p3, p4, p5, p6⟩ := hp
    have a := x1 p.x p1 p2
    have c := y1 p.y p3 p4
    have d := z1 p.z p5 p6
    simp only at a
    exact ⟨by linarith [a.1, c.1, d.1], by linarith [a.2, c.2, d.2]⟩
  · obtain ⟨x, ex, x2⟩ := x2
    obtain ⟨y, ey, y2⟩ := y2
    obtain ⟨z, ez, z2⟩ := z2
    have f : ∀ {l h u : K}, l ≤ h → (u = l ∨ u = h) → l ≤ u ∧ u ≤ h := by
      intro l h u hl hu
      rcases hu with rfl | rfl
      · exact ⟨le_refl _, hl⟩
      · exact ⟨hl, le_refl _⟩
    refine ⟨⟨x, y, z⟩, ⟨(f hx ex).1, (f hx ex).2, (f hy ey).1, (f hy ey).2, (f hz ez).1, (f hz ez).2⟩, ?_⟩
    rw [z2, y2, x2]
    ring
  · obtain ⟨x, ex, x2⟩ := x3
    obtain ⟨y, ey, y2⟩ := y3
    obtain ⟨z, ez, z2⟩ := z3
    have f : ∀ {l h u : K}, l ≤ h → (u = l ∨ u = h) → l ≤ u ∧ u ≤ h := by
      intro l h u hl hu
      rcases hu with rfl | rfl
      · exact ⟨le_refl _, hl⟩
      · exact ⟨hl, le_refl _⟩
    refine ⟨⟨x, y, z⟩, ⟨(f hx ex).1, (f hx ex).2, (f hy ey).1, (f hy ey).2, (f hz ez).1, (f hz ez).2⟩, ?_⟩
    rw [z2, y2, x2]
    ring

/-- The loop of `project`. -/
theorem proj_fold {K : Type} [Add K] [Mul K] [Zero K] [LinearOrder K] {T : Mat4 K} : ∀ {vs : List (V3 K)} {s : Proj K},
    let r := vs.foldl (projStep T) s
    (∀ v ∈ vs, r.minx ≤ (T.mulV3 v).x ∧ r.miny ≤ (T.mulV3 v).y ∧ (T.mulV3 v).x ≤ r.maxx ∧ (T.mulV3 v).y ≤ r.maxy) ∧
    (r.minx ≤ s.minx ∧ r.miny ≤ s.miny ∧ s.maxx ≤ r.maxx ∧ s.maxy ≤ r.maxy) ∧
    (∀ m, m ≤ s.minx → (∀ v ∈ vs, m ≤ (T.mulV3 v).x) → m ≤ r.minx) ∧
    (∀ m, m ≤ s.miny → (∀ v ∈ vs, m ≤ (T.mulV3 v).y) → m ≤ r.miny) ∧
    (∀ m, s.maxx ≤ m → (∀ v ∈ vs, (T.mulV3 v).x ≤ m) → r.maxx ≤ m) ∧
    (∀ m, s.maxy ≤ m → (∀ v ∈ vs, (T.mulV3 v).y ≤ m) → r.maxy ≤ m) ∧
    (r.part = true ↔ s.part = true ∨ ∃ v ∈ vs, (T.mulV3 v).z < 0) ∧
    (r.all = true ↔ s.all = true ∧ ∀ v ∈ vs, (T.mulV3 v).z < 0)
  | [], s => by simp
  | v :: vs, s => by
    obtain ⟨h1, h2, h3, h4, h5, h6, h7, h8⟩ := proj_fold (T := T) (vs := vs) (s := projStep T s v)
    have e1 : (projStep T s v).minx = fmin s.minx (T.mulV3 v).x := by unfold projStep; dsimp only; split <;> rfl
    have e2 : (projStep T s v).miny = fmin s.miny (T.mulV3 v).y := by unfold projStep; dsimp only; split <;> rfl
    have e3 : (projStep T s v).maxx = fmax s.maxx (T.mulV3 v).x := by unfold projStep; dsimp only; split <;> rfl
    have e4 : (projStep T s v).maxy = fmax s.maxy (T.mulV3 v).y := by unfold projStep; dsimp only; split <;> rfl
    have e5 : (projStep T s v).part = true ↔ s.part = true ∨ (T.mulV3 v).z < 0 := by
      unfold projStep; dsimp only; split <;> simp_all
    have e6 : (projStep T s v).all = true ↔ s.all = true ∧ (T.mulV3 v).z < 0 := by
      unfold projStep; dsimp only; split <;> simp_all
    rw [e1] at h2 h3
    rw [e2] at h2 h4
    rw [e3] at h2 h5
    rw [e4] at h2 h6
    rw [e5] at h7
    rw [e6] at h8
    dsimp only
    rw [List.foldl_cons]
    refine ⟨fun u hu => ?_, ⟨le_trans h2.1 fmin_le.1, le_trans h2.2.1 fmin_le.1, le_trans le_fmax.1 h2.2.2.1,
      le_trans le_fmax.1 h2.2.2.2⟩, ?_, ?_, ?_, ?_, ?_, ?_⟩
    · rcases List.mem_cons.1 hu with rfl | hu
      · exact ⟨le_trans h2.1 fmin_le.2, le_trans h2.2.1 fmin_le.2, le_trans le_fmax.2 h2.2.2.1, le_trans le_fmax.2 h2.2.2.2⟩
      · exact h1 u hu
    · exact fun m hm hv => h3 m (le_fmin hm (hv v (by simp))) fun u hu => hv u (by simp [hu])
    · exact fun m hm hv => h4 m (le_fmin hm (hv v (by simp))) fun u hu => hv u (by simp [hu])
    · exact fun m hm hv => h5 m (fmax_le hm (hv v (by simp))) fun u hu => hv u (by simp [hu])
    · exact fun m hm hv => h6 m (fmax_le hm (hv v (by simp))) fun u hu => hv u (by simp [hu])
    · rw [h7]; simp [or_assoc]
    · rw [h8]; simp [and_assoc]

/-- A linear function on a box is bounded by its values at the corners. -/
theorem corner_bounds {t0 t1 t2 t3 : K} {b : BBox K} {p : V3 K} (hp : InBox b p) :
    (∃ v ∈ b.corners, t0 * v.x + t1 * v.y + t2 * v.z + t3 ≤ t0 * p.x + t1 * p.y + t2 * p.z + t3) ∧
    (∃ v ∈ b.corners, t0 * p.x + t1 * p.y + t2 * p.z + t3 ≤ t0 * v.x + t1 * v.y + t2 * v.z + t3) := by
  obtain ⟨h1, h2, h3, h4, h5, h6⟩ := hp
  have f : ∀ {t l h x : K}, l ≤ x → x ≤ h → (∃ u, (u = l ∨ u = h) ∧ t * u ≤ t * x) ∧ ∃ u, (u = l ∨ u = h) ∧ t * x ≤ t * u := by
    intro t l h x a c
    rcases le_total 0 t with ht | ht
    · exact ⟨⟨l, .inl rfl, mul_le_mul_of_nonneg_left a ht⟩, h, .inr rfl, mul_le_mul_of_nonneg_left c ht⟩
    · exact ⟨⟨h, .inr rfl, mul_le_mul_of_nonpos_left c ht⟩, l, .inl rfl, mul_le_mul_of_nonpos_left a ht⟩
  have g : ∀ {x y z : K}, (x = b.min.x ∨ x = b.max.x) → (y = b.min.y ∨ y = b.max.y) → (z = b.min.z ∨ z = b.max.z) →
      (⟨x, y, z⟩ : V3 K) ∈ b.corners := by
    intro x y z hx hy hz
    rcases hx with rfl | rfl <;> rcases hy with rfl | rfl <;> rcases hz with rfl | rfl <;> simp [BBox.corners]
  obtain ⟨⟨x, hx, ex⟩, x', hx', ex'⟩ := f (t := t0) h1 h2
  obtain ⟨⟨y, hy, ey⟩, y', hy', ey'⟩ := f (t := t1) h3 h4
  obtain ⟨⟨z, hz, ez⟩, z', hz', ez'⟩ := f (t := t2) h5 h6
  exact ⟨⟨⟨x, y, z⟩, g hx hy hz, by dsimp only; linarith⟩, ⟨x', y', z'⟩, g hx' hy' hz', by dsimp only; linarith⟩

omit [LinearOrder K] [IsStrictOrderedRing K] in
theorem mulV3_affine (T : Mat4 K) (p : V3 K) : T.mulV3 p = affine T p := by
  simp only [Mat4.mulV3, affine, Mat4.col, V4.xyz, V4.add, V4.mul, V4.set1, V3.mk.injEq]
  refine ⟨?_, ?_, ?_⟩ <;> ring

end Rpp.VMath
