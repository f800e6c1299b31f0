import Verif.Spec.QuatRounded
import Verif.Proof.Rounded
import Verif.Proof.Quat
import Mathlib.Tactic.IntervalCases

/-! The entries of `to_mat` with rounding, and quaternions of length one. -/

namespace Rpp.VMath
open Rpp.Angle Rpp.Lerp Rpp.Spec

variable {p : Nat}

theorem two_val : (2 : Fl p).val = 2 := rfl

/-- Doubling is exact. -/
theorem Near.twice {a b : Fl p} (ha : IsFloat p a.val) : Near p 1 (2 * a * b).val (2 * a.val * b.val) (2 * |a.val * b.val|) := by
  have e : (2 * a).val = 2 * a.val := by
    show Angle.round p (2 * a.val) = _
    exact round_float (isFloat_two_mul ha)
  have := Near.prod (2 * a) b
  rw [e] at this
  exact this.cast rfl (by rw [mul_assoc, abs_mul]; norm_num)

theorem Near.off {a b c d : Fl p} (ha : IsFloat p a.val) (hc : IsFloat p c.val) :
    Near p 2 (2 * a * b + 2 * c * d).val (2 * a.val * b.val + 2 * c.val * d.val) (2 * |a.val * b.val| + 2 * |c.val * d.val|) ∧
    Near p 2 (2 * a * b - 2 * c * d).val (2 * a.val * b.val - 2 * c.val * d.val) (2 * |a.val * b.val| + 2 * |c.val * d.val|) :=
  ⟨(Near.twice ha).add (Near.twice hc), (Near.twice ha).sub (Near.twice hc)⟩

theorem Near.diag {a b : Fl p} (ha : IsFloat p a.val) (hb : IsFloat p b.val) :
    Near p 3 (1 - 2 * a * a - 2 * b * b).val (1 - 2 * a.val * a.val - 2 * b.val * b.val) (1 + 2 * a.val ^ 2 + 2 * b.val ^ 2) := by
  have h1 : Near p 1 (1 : Fl p).val 1 1 := (((Near.exact (1 : Rat)).up (Nat.zero_le 1)).cast rfl (by norm_num))
  have h := (h1.sub (Near.twice (b := a) ha)).sub ((Near.twice (b := b) hb).up (by omega : 1 ≤ 2))
  refine h.cast rfl ?_
  rw [abs_mul_self, abs_mul_self]
  ring

/-- Entries of the matrix in exact numbers. -/
theorem rot_near {q : Quat (Fl p)} (hf : q.Floats) (i j : Fin 3) :
    Near p (if i = j then 3 else 2) (entry q.to_mat i.castSucc j.castSucc) (((exactQ q).to_mat.col j.castSucc).get i.castSucc)
      (rotTerms (exactQ q) i j) := by
  obtain ⟨hx, hy, hz, hw⟩ := hf
  fin_cases i <;> fin_cases j
  · exact Near.diag hy hz
  · exact (Near.off hx hz).2
  · exact (Near.off hx hy).1
  · exact (Near.off hx hz).1
  · exact Near.diag hx hz
  · exact (Near.off hy hx).2
  · exact (Near.off hx hy).2
  · exact (Near.off hy hx).1
  · exact Near.diag hx hy

theorem Fl.ext {a b : Fl p} (h : a.val = b.val) : a = b := by cases a; cases b; cases h; rfl

theorem neg_mul_fl (a b : Fl p) : -a * b = -(a * b) := by
  apply Fl.ext
  show round p (-a.val * b.val) = -round p (a.val * b.val)
  rw [neg_mul, round_neg]

theorem mul_neg_fl (a b : Fl p) : a * -b = -(a * b) := by
  apply Fl.ext
  show round p (a.val * -b.val) = -round p (a.val * b.val)
  rw [mul_neg, round_neg]

theorem neg_neg_fl (a : Fl p) : - -a = a := by
  apply Fl.ext
  show - -a.val = a.val
  rw [neg_neg]

theorem sub_neg_fl (a b : Fl p) : a - -b = a + b := by
  apply Fl.ext
  show round p (a.val - -b.val) = round p (a.val + b.val)
  rw [sub_neg_eq_add]

theorem add_neg_fl (a b : Fl p) : a + -b = a - b := by
  apply Fl.ext
  show round p (a.val + -b.val) = round p (a.val - b.val)
  rw [sub_eq_add_neg]

/-! ## Quaternions of length one -/

theorem sq8 (a : Int) : a * a % 8 = 0 ∧ a % 2 = 0 ∨ a * a % 8 = 4 ∧ a % 2 = 0 ∨ a * a % 8 = 1 ∧ a % 2 = 1 := by
  have h : a % 8 = 0 ∨ a % 8 = 1 ∨ a % 8 = 2 ∨ a % 8 = 3 ∨ a % 8 = 4 ∨ a % 8 = 5 ∨ a % 8 = 6 ∨ a % 8 = 7 := by omega
  have e : a * a % 8 = (a % 8) * (a % 8) % 8 := Int.mul_emod a a 8
  rcases h with h | h | h | h | h | h | h | h <;> rw [h] at e <;> norm_num at e <;> omega

/-- The only ways to write a power of four as the sum of four squares. -/
theorem four_squares : ∀ (n : Nat) (a b c d : Int), a * a + b * b + c * c + d * d = 4 ^ n →
    ∀ t ∈ [a, b, c, d], t = 0 ∨ |t| = 2 ^ n ∨ 2 * |t| = 2 ^ n := by
  have small : ∀ t : Int, ∀ k : Int, 0 ≤ k → t * t ≤ k * k → -k ≤ t ∧ t ≤ k := by
    intro t k hk h
    exact ⟨by nlinarith, by nlinarith⟩
  intro n
  induction n with
  | zero =>
    intro a b c d h t ht
    have h0 : ∀ t ∈ [a, b, c, d], t * t ≤ 1 * 1 := by
      intro t ht
      have := mul_self_nonneg a; have := mul_self_nonneg b; have := mul_self_nonneg c; have := mul_self_nonneg d
      simp only [List.mem_cons, List.not_mem_nil, or_false] at ht
      rcases ht with rfl | rfl | rfl | rfl <;> linarith
    obtain ⟨h1, h2⟩ := small t 1 (by norm_num) (h0 t ht)
    have : t = 0 ∨ t = 1 ∨ t = -1 := by omega
    rcases this with rfl | rfl | rfl <;> simp
  | succ n ih =>
    intro a b c d h t ht
    by_cases ev : a % 2 = 0 ∧ b % 2 = 0 ∧ c % 2 = 0 ∧ d % 2 = 0
    · obtain ⟨e1, e2, e3, e4⟩ := ev
      obtain ⟨a', rfl⟩ := Int.dvd_of_emod_eq_zero e1
      obtain ⟨b', rfl⟩ := Int.dvd_of_emod_eq_zero e2
      obtain ⟨c', rfl⟩ := Int.dvd_of_emod_eq_zero e3
      obtain ⟨d', rfl⟩ := Int.dvd_of_emod_eq_zero e4
      have h' : a' * a' + b' * b' + c' * c' + d' * d' = 4 ^ n := by
        rw [pow_succ] at h
        nlinarith
      have key : ∀ t' ∈ [a', b', c', d'], 2 * t' = 0 ∨ |2 * t'| = 2 ^ (n + 1) ∨ 2 * |2 * t'| = 2 ^ (n + 1) := by
        intro t' ht'
        rw [abs_mul, pow_succ]
        rcases ih a' b' c' d' h' t' ht' with h | h | h
        · left; omega
        · right; left; rw [h]; norm_num; ring
        · right; right; norm_num; linarith
      simp only [List.mem_cons, List.not_mem_nil, or_false] at ht key
      rcases ht with rfl | rfl | rfl | rfl
      · exact key a' (by simp)
      · exact key b' (by simp)
      · exact key c' (by simp)
      · exact key d' (by simp)
    · have h8 : (a * a + b * b + c * c + d * d) % 8 = 4 ^ (n + 1) % 8 := by rw [h]
      have n0 : n = 0 := by
        by_contra hn
        obtain ⟨m, rfl⟩ := Nat.exists_eq_succ_of_ne_zero hn
        have : (4 : Int) ^ (m.succ + 1) % 8 = 0 := by
          rw [show m.succ + 1 = m + 2 from rfl, pow_add]
          omega
        rw [this] at h8
        have := sq8 a; have := sq8 b; have := sq8 c; have := sq8 d
        omega
      subst n0
      norm_num at h h8
      have h0 : ∀ t ∈ [a, b, c, d], t * t ≤ 2 * 2 := by
        intro t ht
        have := mul_self_nonneg a; have := mul_self_nonneg b; have := mul_self_nonneg c; have := mul_self_nonneg d
        simp only [List.mem_cons, List.not_mem_nil, or_false] at ht
        rcases ht with rfl | rfl | rfl | rfl <;> linarith
      obtain ⟨h1, h2⟩ := small t 2 (by norm_num) (h0 t ht)
      have : t = 0 ∨ t = 1 ∨ t = -1 ∨ t = 2 ∨ t = -2 := by omega
      rcases this with rfl | rfl | rfl | rfl | rfl <;> simp

/-- A number of the format times a large power of two is whole. -/
theorem scaled {x : Rat} (h : IsFloat p x) : ∃ k : Nat, ∀ n, k ≤ n → ∃ m : Int, x * 2 ^ n = m := by
  obtain ⟨m, e, _, rfl⟩ := h
  refine ⟨(-e).toNat, fun n hn => ⟨m * 2 ^ (n + e).toNat, ?_⟩⟩
  push_cast
  rw [mul_assoc, ← zpow_natCast (2 : Rat) n, ← zpow_add₀ (by norm_num), ← zpow_natCast (2 : Rat) (n + e).toNat]
  congr 2
  omega

end Rpp.VMath
