import Verif.Spec.View

/-! # Proofs about views of vectors -/

namespace Rpp.View
open Rpp Rpp.Spec.View

variable {T : Type}

theorem comps_path : ∀ (p : List Name) (r : Ref),
    comps (List.range' r.off r.len) p = (r.path p).map (fun s => List.range' s.off s.len)
  | [], r => rfl
  | n :: ns, ⟨o, l⟩ => by
    have step : ∀ (s : Ref), (⟨o, l⟩ : Ref).view n = some s →
        (letters n).filterMap ((List.range' o l)[·]?) = List.range' s.off s.len ∧ 2 < l ∧ l < 5 ∧ (letters n).length < l ∧
          (letters n).all (· < l) := by
      intro s hs
      cases n <;> simp only [Ref.view] at hs <;> split at hs <;> cases hs <;> rename_i h
      all_goals first
        | (rcases h with h | h <;> (have h : l = _ := h; subst h; simp [letters, List.range']))
        | (have h : l = _ := h; subst h; simp [letters, List.range'])
    have none' : (⟨o, l⟩ : Ref).view n = none → ¬ (2 < l ∧ l < 5 ∧ (letters n).length < l ∧ (letters n).all (· < l)) := by
      intro hs
      cases n <;> simp only [Ref.view] at hs <;> split at hs <;> first | (cases hs; done) | skip
      all_goals (rename_i h; simp [letters]; omega)
    unfold comps Ref.path
    cases hv : (⟨o, l⟩ : Ref).view n with
    | none =>
      rw [if_neg (by rw [List.length_range']; exact none' hv)]
      rfl
    | some s =>
      obtain ⟨h1, h2⟩ := step s hv
      rw [if_pos (by rw [List.length_range']; exact h2), h1, comps_path ns s]
      rfl

theorem comps_range (p : List Name) (n : Nat) :
    comps (List.range n) p = ((Ref.mk 0 n).path p).map (fun s => List.range' s.off s.len) := by
  rw [List.range_eq_range']
  exact comps_path p ⟨0, n⟩

theorem path_within : ∀ (p : List Name) {r s : Ref}, r.path p = some s → r.off ≤ s.off ∧ s.off + s.len ≤ r.off + r.len ∧ (2 ≤ r.len → 2 ≤ s.len)
  | [], r, s, h => by cases h; omega
  | n :: ns, r, s, h => by
    unfold Ref.path at h
    cases hv : r.view n with
    | none => rw [hv] at h; cases h
    | some t =>
      rw [hv] at h
      have := path_within ns (r := t) h
      have : r.off ≤ t.off ∧ t.off + t.len ≤ r.off + r.len ∧ 2 ≤ t.len := by
        cases n <;> simp only [Ref.view] at hv <;> split at hv <;> cases hv <;> dsimp only <;> omega
      omega

theorem pick (m : List T) : ∀ (n o : Nat), o + n ≤ m.length → (List.range' o n).filterMap (m[·]?) = (m.drop o).take n
  | 0, o, _ => by simp
  | n + 1, o, h => by
    rw [List.range'_succ, List.filterMap_cons, List.getElem?_eq_getElem (by omega)]
    dsimp only
    rw [pick m n (o + 1) (by omega), List.drop_eq_getElem_cons (by omega : o < m.length), List.take_succ_cons]

theorem at_ok {r : Ref} {m : List T} {i : Nat} (hi : i < r.len) (hr : r.off + r.len ≤ m.length) :
    ∃ x, m[r.off + i]? = some x ∧ r.at m i = .ok x := by
  have h : r.off + i < m.length := by omega
  refine ⟨m[r.off + i], List.getElem?_eq_getElem h, ?_⟩
  unfold Ref.at
  rw [if_pos hi, List.getElem?_eq_getElem h]

theorem copy_ok {r : Ref} {m : List T} (hr : r.off + r.len ≤ m.length) : ∀ n, n ≤ r.len →
    r.copy m n = .ok ((m.drop r.off).take n)
  | 0, _ => by simp [Ref.copy]
  | n + 1, hn => by
    unfold Ref.copy
    obtain ⟨x, hx, e⟩ := at_ok (m := m) (show n < r.len by omega) hr
    rw [copy_ok hr n (by omega)]
    simp only [bind, Except.bind, e]
    refine congrArg Except.ok ?_
    rw [List.take_succ, List.getElem?_drop, hx]
    rfl

theorem loop_ok {r : Ref} {f : Nat → T → Res T} {g : Nat → T → T} {m : List T} (hr : r.off + r.len ≤ m.length)
    (hf : ∀ i, i < r.len → ∀ x, f i x = .ok (g i x)) : ∀ n, n ≤ r.len →
    ∃ m', r.loop f m n = .ok m' ∧ m'.length = m.length ∧ (∀ i, i < n → m'[r.off + i]? = (m[r.off + i]?).map (g i)) ∧
      ∀ j, (j < r.off ∨ r.off + n ≤ j) → m'[j]? = m[j]?
  | 0, _ => ⟨m, rfl, rfl, fun i hi => by omega, fun _ _ => rfl⟩
  | n + 1, hn => by
    obtain ⟨w, e, hl, h1, h2⟩ := loop_ok hr hf n (by omega)
    obtain ⟨x, hx, ex⟩ := at_ok (m := w) (r := r) (show n < r.len by omega) (by omega)
    have hx' : m[r.off + n]? = some x := by rw [← h2 _ (Or.inr (Nat.le_refl _))]; exact hx
    refine ⟨w.set (r.off + n) (g n x), ?_, ?_, ?_, ?_⟩
    · unfold Ref.loop
      simp only [bind, Except.bind, e, ex, hf n (by omega)]
      unfold Ref.put
      rw [if_pos ⟨by omega, by omega⟩]
    · rw [List.length_set, hl]
    · intro i hi
      by_cases hin : i = n
      · subst hin
        rw [List.getElem?_set_self (by omega), hx']
        rfl
      · rw [List.getElem?_set_ne (by omega)]
        exact h1 i (by omega)
    · intro j hj
      rw [List.getElem?_set_ne (by omega)]
      exact h2 j (by omega)

theorem changed {r : Ref} {m m' xs : List T} {g : Nat → T → T} (hr : r.off + r.len ≤ m.length) (hl : m'.length = m.length)
    (h1 : ∀ i, i < r.len → m'[r.off + i]? = (m[r.off + i]?).map (g i)) (h2 : ∀ j, (j < r.off ∨ r.off + r.len ≤ j) → m'[j]? = m[j]?)
    (hx : xs.length = r.len) (hg : ∀ i, i < r.len → ∀ x, m[r.off + i]? = some x → xs[i]? = some (g i x)) :
    Changed m m' (List.range' r.off r.len) xs := by
  refine ⟨hl, by rw [List.length_range', hx], fun i j hij => ?_, fun j hj => h2 j ?_⟩
  · obtain ⟨hi, e⟩ := List.getElem?_eq_some_iff.1 hij
    rw [List.length_range'] at hi
    rw [List.getElem_range'] at e
    have e : r.off + i = j := by omega
    subst e
    obtain ⟨x, hx, -⟩ := at_ok (m := m) hi hr
    rw [h1 i hi, hg i hi x hx, hx]
    rfl
  · rw [List.mem_range'_1] at hj
    omega

theorem elem_take {m : List T} {o n i : Nat} (hi : i < n) : ((m.drop o).take n)[i]? = m[o + i]? := by
  rw [List.getElem?_take_of_lt hi, List.getElem?_drop]

theorem clash_iff {r s : Ref} (h1 : 0 < r.len) (hl : r.len = s.len) :
    r.clash s = false ↔ (List.range' r.off r.len = List.range' s.off s.len ∨ ∀ j ∈ List.range' r.off r.len, j ∉ List.range' s.off s.len) := by
  obtain ⟨o, l⟩ := r
  obtain ⟨o', l'⟩ := s
  dsimp only at h1 hl
  subst hl
  unfold Ref.clash
  dsimp only
  constructor
  · intro h
    by_cases ho : o = o'
    · subst ho; exact Or.inl rfl
    · right
      intro j hj hj'
      rw [List.mem_range'_1] at hj hj'
      rw [Bool.and_eq_false_iff, Bool.and_eq_false_iff] at h
      rcases h with (h | h) | h
      · have := of_decide_eq_false h; omega
      · have := of_decide_eq_false h; omega
      · simp [ho] at h
  · rintro (h | h)
    · have : o = o' := by
        obtain ⟨k, rfl⟩ : ∃ k, l = k + 1 := ⟨l - 1, by omega⟩
        rw [List.range'_succ, List.range'_succ] at h
        exact (List.cons.inj h).1
      subst this
      simp
    · rw [Bool.and_eq_false_iff, Bool.and_eq_false_iff]
      by_cases a : o < o' + l
      · by_cases b : o' < o + l
        · exfalso
          rcases Nat.le_total o o' with c | c
          · exact h o' (by rw [List.mem_range'_1]; omega) (by rw [List.mem_range'_1]; omega)
          · exact h o (by rw [List.mem_range'_1]; omega) (by rw [List.mem_range'_1]; omega)
        · exact Or.inl (Or.inr (decide_eq_false b))
      · exact Or.inl (Or.inl (decide_eq_false a))

end Rpp.View
