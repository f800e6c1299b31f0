import Verif.Model.Float

/-! # Selecting among floating point numbers: lemmas -/

namespace Rpp.Flt

variable {I : Nat}

theorem lt_of {a b : F} (ha : a.isNan I = false) (hb : b.isNan I = false) : lt I a b = decide (a.key < b.key) := by
  simp [lt, ha, hb]

theorem lt_nan {a b : F} (h : a.isNan I = true ∨ b.isNan I = true) : lt I a b = false := by
  rcases h with h | h <;> simp [lt, h]

/-- Of two numbers that are not NaN, `min` and `max` return one that is lowest or highest. -/
theorem min_max {a b : F} (ha : a.isNan I = false) (hb : b.isNan I = false) :
    ((fmin I a b = a ∨ fmin I a b = b) ∧ (fmin I a b).key ≤ a.key ∧ (fmin I a b).key ≤ b.key) ∧
    ((fmax I a b = a ∨ fmax I a b = b) ∧ a.key ≤ (fmax I a b).key ∧ b.key ≤ (fmax I a b).key) := by
  unfold fmin fmax
  rw [lt_of ha hb, lt_of hb ha]
  constructor
  · by_cases h : a.key < b.key
    · simp [h]; omega
    · simp [h]; omega
  · by_cases h : b.key < a.key
    · simp [h]; omega
    · simp [h]; omega

/-- If one of them is NaN, the result is the second one. -/
theorem sel_nan {a b : F} (h : a.isNan I = true ∨ b.isNan I = true) : fmin I a b = b ∧ fmax I a b = b := by
  unfold fmin fmax
  rw [lt_nan h, lt_nan h.symm]
  exact ⟨rfl, rfl⟩

/-- The fold behind the list versions and the boxes, without NaN. -/
theorem fold_min : ∀ (l : List F) (a : F), a.isNan I = false → (∀ x ∈ l, x.isNan I = false) →
    (l.foldl (fmin I) a).isNan I = false ∧ (l.foldl (fmin I) a).key ≤ a.key ∧ (∀ x ∈ l, (l.foldl (fmin I) a).key ≤ x.key) ∧
      l.foldl (fmin I) a ∈ a :: l
  | [], a, ha, _ => ⟨ha, by simp, by simp, by simp⟩
  | b :: l, a, ha, hl => by
    obtain ⟨⟨h1, h2, h3⟩, _⟩ := min_max ha (hl b (.head _))
    have hn : (fmin I a b).isNan I = false := by
      rcases h1 with h | h <;> rw [h]
      · exact ha
      · exact hl b (.head _)
    obtain ⟨g1, g2, g3, g4⟩ := fold_min l (fmin I a b) hn fun x hx => hl x (.tail _ hx)
    rw [List.foldl_cons]
    refine ⟨g1, by omega, fun x hx => ?_, ?_⟩
    · rcases List.mem_cons.mp hx with rfl | hx
      · omega
      · exact g3 x hx
    · rcases List.mem_cons.mp g4 with h | h
      · rw [h]; rcases h1 with h | h <;> rw [h] <;> simp
      · exact .tail _ (.tail _ h)

theorem fold_max : ∀ (l : List F) (a : F), a.isNan I = false → (∀ x ∈ l, x.isNan I = false) →
    (l.foldl (fmax I) a).isNan I = false ∧ a.key ≤ (l.foldl (fmax I) a).key ∧ (∀ x ∈ l, x.key ≤ (l.foldl (fmax I) a).key) ∧
      l.foldl (fmax I) a ∈ a :: l
  | [], a, ha, _ => ⟨ha, by simp, by simp, by simp⟩
  | b :: l, a, ha, hl => by
    obtain ⟨_, h1, h2, h3⟩ := min_max ha (hl b (.head _))
    have hn : (fmax I a b).isNan I = false := by
      rcases h1 with h | h <;> rw [h]
      · exact ha
      · exact hl b (.head _)
    obtain ⟨g1, g2, g3, g4⟩ := fold_max l (fmax I a b) hn fun x hx => hl x (.tail _ hx)
    rw [List.foldl_cons]
    refine ⟨g1, by omega, fun x hx => ?_, ?_⟩
    · rcases List.mem_cons.mp hx with rfl | hx
      · omega
      · exact g3 x hx
    · rcases List.mem_cons.mp g4 with h | h
      · rw [h]; rcases h1 with h | h <;> rw [h] <;> simp
      · exact .tail _ (.tail _ h)

theorem top_ok : (top I).isNan I = false ∧ (bottom I).isNan I = false := by
  unfold top bottom F.isNan
  simp only [decide_eq_false_iff_not]
  omega

end Rpp.Flt
