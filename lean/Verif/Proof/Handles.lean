import Verif.Spec.Handles

/-! # Proofs about handles of coroutines -/

namespace Rpp.Handles

open Rpp.Handles.Spec

theorem distance_zero : distance 0 = 16 := by decide

theorem promise_eq (h : Handle) : h.promise = h.ptr + 16 := by
  simp [Handle.promise, coroPromise, distance_zero]

theorem fromPromise_eq (x : Addr) : fromPromise x = ⟨x - 16⟩ := by
  simp [fromPromise, coroPromise, distance_zero]

theorem promiseAt_small {f x : Addr} {al : Nat} (ha : al ∣ 16) (h : PromiseAt f al x) : x = f + 16 := by
  obtain ⟨d, rfl, h1, _, h3⟩ := h
  have := h3 16 (Nat.le_refl _) ha
  have : d = 16 := by omega
  subst this
  rfl

theorem promiseAt_large {f x : Addr} {al : Nat} (ha : 16 < al) (h : PromiseAt f al x) : x = f + BitVec.ofNat 64 al := by
  obtain ⟨d, rfl, h1, h2, h3⟩ := h
  have := h3 al (by omega) (Nat.dvd_refl _)
  have := Nat.le_of_dvd (by omega) h2
  have : d = al := by omega
  rw [this]

theorem distance_at {f : Addr} {al : Nat} (ha : 0 < al) : PromiseAt f al (f + BitVec.ofNat 64 (distance al)) := by
  have hm : max al 1 = al := by omega
  refine ⟨distance al, rfl, ?_, ?_, ?_⟩
  · unfold distance
    rw [hm]
    have := Nat.div_add_mod (16 + (al - 1)) al
    have := Nat.mod_lt (16 + (al - 1)) ha
    have h3 : al * ((16 + (al - 1)) / al) = (16 + (al - 1)) / al * al := Nat.mul_comm _ _
    omega
  · unfold distance
    rw [hm]
    exact Nat.dvd_mul_left _ _
  · intro d' h1 h2
    obtain ⟨k, rfl⟩ := h2
    unfold distance
    rw [hm, Nat.mul_comm al k]
    apply Nat.mul_le_mul_right
    rw [Nat.div_le_iff_le_mul_add_pred ha]
    omega

theorem frame_state {c : Addr} (hc : FrameAddr c) : c ≠ taskStart ∧ c ≠ taskDone ∧ c ≠ taskAbandoned := by
  refine ⟨hc.1, ?_, ?_⟩
  · rintro rfl
    exact absurd hc.2 (by decide)
  · rintro rfl
    exact absurd hc.2 (by decide)

end Rpp.Handles
