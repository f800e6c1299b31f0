import Verif.Spec.Atomic
import Verif.Proof.Sched

namespace Rpp.Atomic

open Rpp.Spec.Atomic

theorem wrap_inRange {x : Int} (h : InRange x) : wrap x = x := by
  unfold InRange at h
  unfold wrap
  omega

theorem expr_inRange {x : Int} (h : InRange x) : expr x = .ok x := if_pos h

theorem net_incr : ∀ es : List (Nat × Op), (∀ e ∈ es, e.2 = .incr) → net es = es.length
  | [], _ => rfl
  | (t, op) :: es, h => by
    have := h _ (List.mem_cons_self ..)
    simp only at this
    subst this
    rw [net, net_incr es fun e he => h e (List.mem_cons_of_mem _ he), List.length_cons]
    omega

theorem net_decr : ∀ es : List (Nat × Op), (∀ e ∈ es, e.2 = .decr) → net es = -es.length
  | [], _ => rfl
  | (t, op) :: es, h => by
    have := h _ (List.mem_cons_self ..)
    simp only at this
    subst this
    rw [net, net_decr es fun e he => h e (List.mem_cons_of_mem _ he), List.length_cons]
    omega

theorem cas_fail (win : Bool) : ∀ (es : List (Nat × Op)) (c v : Int) (rs : List (Nat × Int)), v ≠ c →
    (∀ e ∈ es, ∃ x, e.2 = .cas c x) → runAll (step win) ⟨v, rs⟩ es = .ok ⟨v, rs ++ es.map fun e => (e.1, v)⟩
  | [], _, _, rs, _, _ => by simp [runAll]
  | (t, op) :: es, c, v, rs, hv, h => by
    obtain ⟨x, hx⟩ := h _ (List.mem_cons_self ..)
    simp only at hx
    subst hx
    have : step win ⟨v, rs⟩ (t, Op.cas c x) = .ok ⟨v, rs ++ [(t, v)]⟩ := by
      unfold step apply
      simp only [if_neg hv]
      rfl
    rw [runAll, this]
    simp only
    rw [cas_fail win es c v _ hv fun e he => h e (List.mem_cons_of_mem _ he)]
    simp

end Rpp.Atomic
