import Verif.Model.Report
import Verif.Proof.Region

/-!
# Lemmas on reporting
-/

namespace Rpp.Reg
open Rpp Rpp.Spec

variable {lim : Nat} {s : Reg} {sc : List Scope}

theorem alloc_room (hlim : lim < 2 ^ 62) {c : Scope} (h : Inv lim s (c :: sc)) {n : Nat} (hn : n < 2 ^ 63) :
    (Room lim s n → ∃ r, alloc lim s c.brand n = .ok r) ∧ (¬ Room lim s n → alloc lim s c.brand n = .error .oom) := by
  have hbd := h.chain.1.good.bound
  have hg := h.chain.1.good
  unfold alloc assert_brand
  cases hcs : s.chunks with
  | nil => rw [hcs] at hg; exact hg.elim
  | cons k ks =>
    obtain ⟨hb1, hb2, hb3⟩ := hbd.2 k ks hcs
    have hbr : ¬ s.brands s.current ≠ c.brand := by
      have h1 := h.arr; have h2 := h.cur
      simp only [Arr] at h1
      simp only [List.length_cons] at h2
      have : s.current = sc.length := by omega
      rw [this]; intro hx; exact hx h1.2.1
    rw [if_neg hbr]
    have hw : wsub k.size k.used = k.size - k.used := by unfold wsub; omega
    have ha : wadd n CHUNK = n + 24 := by unfold wadd CHUNK; omega
    have hb : wmul 2 (wadd k.size CHUNK) = 2 * (k.size + 24) := by unfold wadd wmul CHUNK; omega
    have hr : Room lim s n ↔ (k.used + n ≤ k.size ∨ (n + 24 ≤ lim ∧ 2 * (k.size + 24) ≤ lim)) := by
      unfold Room; rw [hcs]; simp
    simp only [bind, Except.bind, new_chunk, hcs, hw, ha, hb]
    by_cases h1 : k.size - k.used < n
    · rw [if_pos h1]
      by_cases h2 : max (n + 24) (2 * (k.size + 24)) > lim
      · rw [if_pos h2]
        exact ⟨fun hh => by rw [hr] at hh; omega, fun _ => rfl⟩
      · rw [if_neg h2]
        exact ⟨fun _ => ⟨_, rfl⟩, fun hh => by rw [hr] at hh; omega⟩
    · rw [if_neg h1]
      simp only [pure, Except.pure, hcs]
      exact ⟨fun _ => ⟨_, rfl⟩, fun hh => by rw [hr] at hh; omega⟩

theorem begin_error (h : 127 ≤ s.current) (b : Nat) : begin s b = .error .die := by
  unfold begin DEPTH
  rw [if_neg (by omega)]

theorem report_deep : ∀ (fuel : Nat) (s : Reg) (m : Msg), 127 ≤ s.current → report lim fuel s m = none
  | 0, _, _, _ => rfl
  | fuel + 1, s, m, h => by
    unfold report
    rw [begin_error h]
    exact report_deep fuel _ _ (by show 127 ≤ s.current + 1; omega)

theorem begin_chunks {b : Nat} {s' : Reg} (e : begin s b = .ok s') : s'.chunks = s.chunks := by
  unfold begin at e
  split at e
  · cases e; rfl
  · cases e

theorem report_full (hlim : lim < 2 ^ 62) : ∀ (fuel : Nat) (s : Reg) (sc : List Scope) (m : Msg), Inv lim s sc →
    m.len < 2 ^ 63 → ¬ Room lim s m.len → ¬ Room lim s 11 → report lim fuel s m = none
  | 0, _, _, _, _, _, _, _ => rfl
  | fuel + 1, s, sc, m, h, hm, h1, h2 => by
    unfold report
    rcases begin_ok h LOG with ⟨_, s', e, hi⟩ | ⟨hx, e⟩
    · rw [e]
      dsimp only
      have hr : ∀ n, Room lim s' n ↔ Room lim s n := fun n => by unfold Room; rw [begin_chunks e]
      have ha := alloc_room hlim hi hm
      rw [ha.2 (by rw [hr]; exact h1)]
      dsimp only
      exact report_full hlim fuel s' _ .ret hi (by decide) (by rw [hr]; exact h2) (by rw [hr]; exact h2)
    · rw [e]
      exact report_deep fuel _ _ (by show 127 ≤ s.current + 1; omega)

end Rpp.Reg
