import Verif.Spec.Place

/-!
# Proofs about places
-/

namespace Rpp.Place

open Spec

theorem al_pos {t : Ty} (h : IsType t) : 0 < t.al := by
  obtain ⟨⟨k, hk⟩, _⟩ := h
  rw [hk]
  exact Nat.two_pow_pos k

theorem dvd16 {k : Nat} : 2 ^ k ∣ 16 ↔ 2 ^ k ≤ 16 := by
  constructor
  · exact fun h => Nat.le_of_dvd (by decide) h
  · intro h
    have : (2 : Nat) ^ k ∣ 2 ^ 4 := by
      refine Nat.pow_dvd_pow 2 ?_
      exact (Nat.pow_le_pow_iff_right (by decide : 1 < 2)).mp h
    exact this

theorem al_dvd16 {t : Ty} (h : IsType t) : t.al ∣ 16 ↔ t.al ≤ 16 := by
  obtain ⟨⟨k, hk⟩, _⟩ := h
  rw [hk]
  exact dvd16

theorem up_dvd (n a : Nat) : a ∣ up n a := Nat.dvd_mul_left a _

theorem up_ge {n a : Nat} (ha : 0 < a) : n ≤ up n a := by
  unfold up
  have h := Nat.div_add_mod (n + a - 1) a
  have h2 := Nat.mod_lt (n + a - 1) ha
  rw [Nat.mul_comm] at h
  omega

theorem up_eq {n a : Nat} (ha : 0 < a) (h : a ∣ n) : up n a = n := by
  obtain ⟨q, rfl⟩ := h
  unfold up
  have : (a * q + a - 1) / a = q := by
    rw [show a * q + a - 1 = a - 1 + a * q by omega, Nat.add_mul_div_left _ _ ha, Nat.div_eq_of_lt (by omega)]
    omega
  rw [this, Nat.mul_comm]

theorem up_lt {n a : Nat} (ha : 0 < a) : up n a < n + a := by
  unfold up
  have := Nat.div_mul_le_self (n + a - 1) a
  omega

/-- The larger of two powers of two is a multiple of both. -/
theorem dvd_max {a b : Nat} (ha : ∃ k, a = 2 ^ k) (hb : ∃ k, b = 2 ^ k) : a ∣ max a b ∧ b ∣ max a b ∧ ∃ k, max a b = 2 ^ k := by
  obtain ⟨k, rfl⟩ := ha
  obtain ⟨l, rfl⟩ := hb
  rcases Nat.le_total k l with h | h
  · have h2 : (2 : Nat) ^ k ≤ 2 ^ l := Nat.pow_le_pow_right (by decide) h
    rw [Nat.max_eq_right h2]
    exact ⟨Nat.pow_dvd_pow 2 h, Nat.dvd_refl _, l, rfl⟩
  · have h2 : (2 : Nat) ^ l ≤ 2 ^ k := Nat.pow_le_pow_right (by decide) h
    rw [Nat.max_eq_left h2]
    exact ⟨Nat.dvd_refl _, Nat.pow_dvd_pow 2 h, k, rfl⟩

theorem storage_eq {t : Ty} (h : IsType t) : storage t = t := by
  unfold storage
  rw [up_eq (al_pos h) h.2.1]

/-- The members of a class of two members. -/
theorem two_good {a b : Ty} (ha : IsType a) (hb : IsType b) :
    a.size ≤ (two a b).1 ∧ (two a b).1 + b.size ≤ (two a b).2.size ∧ b.al ∣ (two a b).1 ∧
    a.al ∣ (two a b).2.al ∧ b.al ∣ (two a b).2.al ∧ IsType (two a b).2 := by
  obtain ⟨h1, h2, h3⟩ := dvd_max ha.1 hb.1
  have hp : 0 < max a.al b.al := by
    have := al_pos ha
    omega
  refine ⟨up_ge (al_pos hb), up_ge hp, up_dvd _ _, h1, h2, h3, up_dvd _ _, ?_⟩
  have := up_ge (n := up a.size b.al + b.size) hp
  have := hb.2.2
  show 0 < up (up a.size b.al + b.size) (max a.al b.al)
  omega

theorem foldl_max_ge (l : List Nat) : ∀ x, x ≤ l.foldl max x ∧ ∀ y ∈ l, y ≤ l.foldl max x := by
  induction l with
  | nil => exact fun x => ⟨Nat.le_refl _, fun _ h => by cases h⟩
  | cons a l ih =>
    intro x
    obtain ⟨h1, h2⟩ := ih (max x a)
    refine ⟨by show x ≤ l.foldl max (max x a); omega, fun y hy => ?_⟩
    show y ≤ l.foldl max (max x a)
    rcases List.mem_cons.mp hy with rfl | hy
    · omega
    · exact h2 y hy

theorem foldl_max_mem (l : List Nat) : ∀ x, l.foldl max x = x ∨ l.foldl max x ∈ l := by
  induction l with
  | nil => exact fun x => .inl rfl
  | cons a l ih =>
    intro x
    show l.foldl max (max x a) = x ∨ l.foldl max (max x a) ∈ a :: l
    rcases ih (max x a) with h | h
    · rcases Nat.le_total x a with hx | hx
      · right
        rw [h, Nat.max_eq_right hx]
        exact List.mem_cons_self
      · left
        rw [h, Nat.max_eq_left hx]
    · exact .inr (List.mem_cons_of_mem _ h)

theorem pow_dvd_of_le {a b : Nat} (ha : ∃ k, a = 2 ^ k) (hb : ∃ k, b = 2 ^ k) (h : a ≤ b) : a ∣ b := by
  have := (dvd_max ha hb).1
  rwa [Nat.max_eq_right h] at this

/-- What may be written in `alignas`. -/
theorem alignas_some (a : Nat) : (∃ k, a = 2 ^ k) ↔ alignas a = some a := by
  unfold alignas
  constructor
  · rintro ⟨k, rfl⟩
    rw [if_pos ⟨Nat.ne_of_gt (Nat.two_pow_pos k), by rw [Nat.log2_two_pow]⟩]
  · intro h
    by_cases hc : a ≠ 0 ∧ a = 2 ^ a.log2
    · exact ⟨_, hc.2⟩
    · rw [if_neg hc] at h
      cases h

theorem alignas_none (a : Nat) : alignas a = none ∨ alignas a = some a := by
  unfold alignas
  split
  · exact .inr rfl
  · exact .inl rfl

end Rpp.Place
