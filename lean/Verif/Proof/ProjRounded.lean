import Verif.Model.ProjRounded
import Verif.Proof.Rounded
import Verif.Proof.Lerp

/-! Lemmas about the projection with rounding. -/

namespace Rpp.VMath
open Rpp.Spec

variable {p : Nat}

theorem fl_zero : (0 : Fl p).val = 0 := rfl
theorem fl_one : (1 : Fl p).val = 1 := rfl
theorem fl_add (a b : Fl p) : (a + b).val = Angle.round p (a.val + b.val) := rfl
theorem fl_mul (a b : Fl p) : (a * b).val = Angle.round p (a.val * b.val) := rfl
theorem fl_div (a b : Fl p) : (a / b).val = Angle.round p (a.val / b.val) := rfl
theorem fl_neg (a : Fl p) : (-a).val = -a.val := rfl

theorem round_round (hp : 1 ≤ p) (x : Rat) : Angle.round p (Angle.round p x) = Angle.round p x :=
  Angle.round_float (Lerp.round_isFloat hp x)

theorem clip_eq (hp : 1 ≤ p) (tan ar n : Fl p) (q : V3 (Fl p)) :
    (clip tan ar n q).x.val = Angle.round p ((1 / tan / ar).val * q.x.val) ∧
    (clip tan ar n q).y.val = Angle.round p (-(1 / tan).val * q.y.val) ∧
    (clip tan ar n q).z.val = Angle.round p n.val ∧ (clip tan ar n q).w.val = -Angle.round p q.z.val := by
  simp only [clip, Mat4.proj, Mat4.mulV4, Mat4.col, V4.add, V4.mul, V4.set1, fl_add, fl_mul, fl_neg, fl_zero, fl_one, zero_mul, mul_one,
    Angle.round_zero, add_zero, zero_add, round_round hp, neg_mul, one_mul, Angle.round_neg, and_self]

/-- A quotient by an exact number. -/
theorem Near.div {n : Nat} {a b : Fl p} {s m : Rat} (h : Near p n a.val s m) :
    Near p (n + 1) (a / b).val (s / b.val) (m / |b.val|) := by
  have := (h.times (Near.exact (p := p) (b.val)⁻¹)).round
  rw [fl_div, div_eq_mul_inv, div_eq_mul_inv, div_eq_mul_inv, ← abs_inv]
  exact this

end Rpp.VMath
