import Verif.Model.Settings

/-!
# Priority and affinity: lemmas
-/

namespace Rpp.Settings

theorem place_lt {h i : Nat} (hi : i < h - 1) : place h i < h := by
  unfold place
  split <;> omega

theorem place_inj {h i j : Nat} (hi : i < h - 1) (hj : j < h - 1) (e : place h i = place h j) : i = j := by
  unfold place at e
  split at e <;> split at e <;> omega

theorem place_onto {h c : Nat} : (∃ i, i < h - 1 ∧ place h i = c) ↔ c < h - 1 := by
  unfold place
  constructor
  · rintro ⟨i, hi, rfl⟩
    split <;> omega
  · intro hne
    rcases Nat.mod_two_eq_zero_or_one c with h2 | h2
    · exact ⟨c / 2, by omega, by rw [if_pos (by omega)]; omega⟩
    · refine ⟨h / 2 + c / 2, by omega, ?_⟩
      rw [if_neg (by omega)]
      omega

theorem mapM_ok {α β : Type} (f : α → Res β) (g : α → β) : ∀ (l : List α), (∀ a ∈ l, f a = .ok (g a)) → l.mapM f = .ok (l.map g)
  | [], _ => rfl
  | a :: l, h => by
    rw [List.mapM_cons, h a (by simp), mapM_ok f g l fun b hb => h b (by simp [hb])]
    rfl

theorem mapM_die {α β : Type} (f : α → Res β) : ∀ (l : List α) (a : α), a ∈ l → f a = .error .die →
    (∀ b ∈ l, f b = .error .die ∨ ∃ r, f b = .ok r) → l.mapM f = .error .die
  | [], _, ha, _, _ => absurd ha (by simp)
  | b :: l, a, ha, hd, hall => by
    rw [List.mapM_cons]
    rcases hall b (by simp) with h | ⟨r, h⟩
    · rw [h]; rfl
    · rw [h]
      have hm : a ∈ l := by
        rcases List.mem_cons.1 ha with rfl | hm
        · rw [hd] at h; cases h
        · exact hm
      have ih := mapM_die f l a hm hd fun c hc => hall c (by simp [hc])
      change (l.mapM f >>= fun bs => pure (r :: bs)) = _
      rw [ih]
      rfl

end Rpp.Settings
