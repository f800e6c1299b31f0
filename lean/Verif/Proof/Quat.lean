import Verif.Spec.QuatView
import Verif.Model.Quat
import Verif.Proof.Mat4Make
import Mathlib.Algebra.Quaternion

/-! # Helper lemmas: quaternions -/

namespace Rpp.VMath

open Rpp.Spec

variable {K : Type} [Field K]

@[simp] theorem toH_re (q : Quat K) : q.toH.re = q.w := rfl
@[simp] theorem toH_imI (q : Quat K) : q.toH.imI = q.x := rfl
@[simp] theorem toH_imJ (q : Quat K) : q.toH.imJ = q.y := rfl
@[simp] theorem toH_imK (q : Quat K) : q.toH.imK = q.z := rfl

theorem toH_inj {p q : Quat K} (h : p.toH = q.toH) : p = q := by
  have h0 := congrArg (·.re) h
  have h1 := congrArg (·.imI) h
  have h2 := congrArg (·.imJ) h
  have h3 := congrArg (·.imK) h
  cases p; cases q
  simp only [toH_re, toH_imI, toH_imJ, toH_imK] at h0 h1 h2 h3
  simp [*]

theorem toH_mul (p q : Quat K) : (p.mul q).toH = p.toH * q.toH := by
  ext <;> simp [Quat.mul] <;> ring

theorem to_mat_mul {p q : Quat K} (hp : p.norm2 = 1) (hq : q.norm2 = 1) : (p.mul q).to_mat = p.to_mat.mul q.to_mat := by
  obtain ⟨a, b, c, d⟩ := p
  obtain ⟨e, f, g, h⟩ := q
  simp only [Quat.norm2] at hp hq
  simp [Quat.to_mat, Quat.mul, Mat4.mul, Mat4.ofCols, Mat4.col, V4.get, V4.add, V4.mul, V4.set1]
  refine ⟨⟨?_, ?_, ?_⟩, ⟨?_, ?_, ?_⟩, ?_, ?_, ?_⟩ <;> grind

theorem to_mat_rotate {q : Quat K} (hq : q.norm2 = 1) (v : V3 K) : q.to_mat.rotV3 v = q.rotate v := by
  obtain ⟨a, b, c, d⟩ := q
  obtain ⟨x, y, z⟩ := v
  simp only [Quat.norm2] at hq
  simp [Quat.to_mat, Quat.rotate, Quat.mul, Quat.conjugate, Quat.complex, Quat.ofV3, Mat4.rotV3, Mat4.col, V4.add, V4.mul, V4.set1, V4.xyz]
  refine ⟨?_, ?_, ?_⟩ <;> grind

theorem to_mat_rotation {q : Quat K} (hq : q.norm2 = 1) : IsRotation q.to_mat.toMatrix := by
  obtain ⟨a, b, c, d⟩ := q
  simp only [Quat.norm2] at hq
  refine frame_rotation (x := ⟨_, _, _⟩) (y := ⟨_, _, _⟩) (z := ⟨_, _, _⟩) ?_ ?_ ?_ ?_
  · simp only [V3.dot]; grind
  · simp only [V3.dot]; grind
  · simp only [V3.dot]; grind
  · simp only [V3.cross, V3.mk.injEq]
    refine ⟨?_, ?_, ?_⟩ <;> grind

end Rpp.VMath
