import Verif.Proof.FormatLen

/-! The text of the two passes is the rendering. -/

namespace Rpp
open Rpp.Spec Rpp.Fmt

theorem ch_digit : ∀ n, n < 10 → ch (Nat.digitChar n) = BitVec.ofNat 8 (48 + n) := by decide

theorem digits_eq : ∀ f n, n < 10 ^ f → 0 < f → digits f n = (Nat.toDigits 10 n).map ch
  | 0, _, _, h => by omega
  | f + 1, n, h, _ => by
    unfold digits
    by_cases h1 : n < 10
    · rw [if_pos h1, Nat.toDigits_of_lt_base h1]
      simp [ch_digit n h1]
    · rw [if_neg h1, Nat.toDigits_of_base_le (by omega) (by omega)]
      have h2 : n / 10 < 10 ^ f := by
        rw [Nat.pow_succ] at h
        exact Nat.div_lt_of_lt_mul (by omega)
      have h3 : 0 < f := by
        rcases Nat.eq_zero_or_pos f with h0 | h0
        · subst h0; simp at h; omega
        · exact h0
      rw [digits_eq f (n / 10) h2 h3, List.map_append]
      congr 1
      simp [ch_digit (n % 10) (Nat.mod_lt _ (by omega))]

theorem intText_eq {n : Int} (h1 : - 2 ^ 63 ≤ n) (h2 : n < 2 ^ 64) : intText n = decimal n := by
  unfold intText decimal lit
  have hb : n.natAbs < 10 ^ 20 := by omega
  rw [digits_eq 20 n.natAbs hb (by omega)]
  have e : toString n = n.repr := rfl
  rw [e, Int.repr_eq_if]
  by_cases h : n < 0
  · rw [if_pos h, if_neg (by omega)]
    rw [String.toList_append, Nat.toList_repr, List.map_append]
    rw [show (-n).toNat = n.natAbs by omega]
    rfl
  · rw [if_neg h, if_pos (by omega), Nat.toList_repr]
    rw [show n.toNat = n.natAbs by omega]

theorem textCases_eq (value : Int) : ∀ cases : List (List Byte × Int), textCases value cases =
    ((cases.filter (fun c => c.2 = value)).map Prod.fst).flatten
  | [] => rfl
  | (name, check) :: r => by
    unfold textCases
    rw [textCases_eq value r]
    by_cases h : value = check
    · rw [if_pos h, List.filter_cons_of_pos (by simp [h])]; simp
    · rw [if_neg h, List.filter_cons_of_neg (by simp; exact fun e => h e.symm)]; simp

theorem textNames_eq : ∀ names j, textNames j (j + names.length) names = join (lit ", ") names
  | [], _ => rfl
  | [x], j => by
    unfold textNames
    rw [if_neg (by simp)]
    simp [textNames, join]
  | x :: y :: r, j => by
    unfold textNames
    rw [if_pos (by simp), show j + (x :: y :: r).length = j + 1 + (y :: r).length by simp; omega,
      textNames_eq (y :: r) (j + 1)]
    simp [join]

theorem renderAll_length : ∀ vs, (renderAll vs).length = vs.length
  | [] => rfl
  | v :: r => by unfold renderAll; simp [renderAll_length r]

mutual

theorem text_eq : ∀ (v : Val), Every ValidPart v → Every CountedPart v → text v = render v
  | .void, _, _ => rfl
  | .char c, _, _ => rfl
  | .int n, h, _ => by
    unfold text render
    unfold Every at h
    exact intText_eq h.1 h.2
  | .float t, _, _ => rfl
  | .bool b, _, _ => by cases b <;> rfl
  | .ptr none, _, _ => rfl
  | .ptr (some t), _, _ => by
    unfold text render
    rw [List.append_assoc]; rfl
  | .str v, _, _ => rfl
  | .seq k items, h, c => by
    unfold Every at h c
    have ih := textItems_eq items h.2 c.2 0
    rw [Nat.zero_add] at ih
    unfold text
    rw [ih]
    cases k <;> (unfold render; rw [List.append_assoc]; rfl)
  | .map n items, h, c => by
    unfold Every at h c
    have ih := textItems_eq items h.2 c.2 0
    rw [Nat.zero_add] at ih
    have e : n = items.length := c.1
    unfold text render
    rw [e, ih, List.append_assoc]; rfl
  | .item k v, h, c => by
    unfold Every at h c
    unfold text render
    rw [text_eq k h.2.1 c.2.1, text_eq v h.2.2 c.2.2]
    simp only [List.append_assoc]; rfl
  | .record name fields, h, c => by
    unfold Every at h c
    have ih := textItems_eq fields h.2 c.2 0
    rw [Nat.zero_add] at ih
    unfold text render
    rw [ih]
    simp only [List.append_assoc]; rfl
  | .field name v, h, c => by
    unfold Every at h c
    unfold text render
    rw [text_eq v h.2 c.2]
    simp only [List.append_assoc]
  | .enum name cases value, _, _ => by
    unfold text render
    rw [textCases_eq, List.append_assoc]
  | .own k none, _, _ => by cases k <;> rfl
  | .own k (some v), h, c => by
    unfold Every at h c
    have ih := text_eq v h.2 c.2
    cases k <;> (unfold text render; rw [ih, List.append_assoc]; rfl)
  | .rc none _, _, _ => rfl
  | .rc (some v) refs, h, c => by
    unfold Every at h c
    unfold text render
    have hr : 0 ≤ refs ∧ refs < 2 ^ 64 := h.1
    rw [text_eq v h.2 c.2, intText_eq (by omega) hr.2]
    simp only [List.append_assoc]; rfl
  | .arc none _, _, _ => rfl
  | .arc (some v) refs, h, c => by
    unfold Every at h c
    unfold text render
    have hr : 0 ≤ refs ∧ refs < 2 ^ 64 := h.1
    rw [text_eq v h.2 c.2, intText_eq (by omega) hr.2]
    simp only [List.append_assoc]; rfl
  | .pair l r, h, c => by
    unfold Every at h c
    unfold text render
    rw [text_eq l h.2.1 c.2.1, text_eq r h.2.2 c.2.2]
    simp only [List.append_assoc]; rfl
  | .tuple items, h, c => by
    unfold Every at h c
    have ih := textItems_eq items h.2 c.2 0
    rw [Nat.zero_add] at ih
    unfold text render
    rw [ih]
    simp only [List.append_assoc]; rfl
  | .variant v, h, c => by
    unfold Every at h c
    unfold text render
    rw [text_eq v h.2 c.2]
    simp only [List.append_assoc]; rfl
  | .named name v, h, c => by
    unfold Every at h c
    unfold text render
    rw [text_eq v h.2 c.2]
    simp only [List.append_assoc]; rfl
  | .storage name, _, _ => by
    unfold text render
    simp only [List.append_assoc]; rfl
  | .fn ret args, _, _ => by
    unfold text render
    have ih := textNames_eq args 0
    rw [Nat.zero_add] at ih
    rw [ih]
    simp only [List.append_assoc]; rfl
  | .vecF items, h, c => by
    unfold Every at h c
    have ih := textItems_eq items h.2 c.2 0
    rw [Nat.zero_add] at ih
    have hl : items.length < 2 ^ 64 := h.1
    unfold text render
    rw [ih, intText_eq (by omega) (by omega)]
    simp only [List.append_assoc]; rfl
  | .vecI signed items, h, c => by
    unfold Every at h c
    have ih := textItems_eq items h.2 c.2 0
    rw [Nat.zero_add] at ih
    have hl : items.length < 2 ^ 64 := h.1
    unfold text render
    rw [ih, intText_eq (by omega) (by omega)]
    simp only [List.append_assoc]
    cases signed <;> rfl
  | .mat4 x0 x1 x2 x3 y0 y1 y2 y3 z0 z1 z2 z3 w0 w1 w2 w3, h, c => by
    unfold Every at h c
    obtain ⟨_, ⟨hx0, hx1, hx2, hx3⟩, ⟨hy0, hy1, hy2, hy3⟩, ⟨hz0, hz1, hz2, hz3⟩, hw0, hw1, hw2, hw3⟩ := h
    obtain ⟨_, ⟨cx0, cx1, cx2, cx3⟩, ⟨cy0, cy1, cy2, cy3⟩, ⟨cz0, cz1, cz2, cz3⟩, cw0, cw1, cw2, cw3⟩ := c
    unfold text render
    rw [text_eq x0 hx0 cx0, text_eq x1 hx1 cx1, text_eq x2 hx2 cx2, text_eq x3 hx3 cx3,
      text_eq y0 hy0 cy0, text_eq y1 hy1 cy1, text_eq y2 hy2 cy2, text_eq y3 hy3 cy3,
      text_eq z0 hz0 cz0, text_eq z1 hz1 cz1, text_eq z2 hz2 cz2, text_eq z3 hz3 cz3,
      text_eq w0 hw0 cw0, text_eq w1 hw1 cw1, text_eq w2 hw2 cw2, text_eq w3 hw3 cw3]
    simp only [join, List.append_assoc]; rfl
  | .quat x y z w, h, c => by
    unfold Every at h c
    obtain ⟨_, hx, hy, hz, hw⟩ := h
    obtain ⟨_, cx, cy, cz, cw⟩ := c
    unfold text render
    rw [text_eq x hx cx, text_eq y hy cy, text_eq z hz cz, text_eq w hw cw]
    simp only [join, List.append_assoc]; rfl
  | .bbox x y z x' y' z', h, c => by
    unfold Every at h c
    obtain ⟨_, ⟨hx, hy, hz⟩, hx', hy', hz'⟩ := h
    obtain ⟨_, ⟨cx, cy, cz⟩, cx', cy', cz'⟩ := c
    unfold text render
    rw [text_eq x hx cx, text_eq y hy cy, text_eq z hz cz, text_eq x' hx' cx', text_eq y' hy' cy',
      text_eq z' hz' cz']
    simp only [join, List.append_assoc]

theorem textItems_eq : ∀ (vs : List Val), EveryOf ValidPart vs → EveryOf CountedPart vs → ∀ j,
    textItems j (j + vs.length) vs = join (lit ", ") (renderAll vs)
  | [], _, _, _ => rfl
  | v :: r, h, c, j => by
    unfold EveryOf at h c
    unfold textItems
    have ih := textItems_eq r h.2 c.2 (j + 1)
    rw [show j + (v :: r).length = j + 1 + r.length by simp; omega, ih, text_eq v h.1 c.1]
    cases r with
    | nil => rw [if_neg (by simp)]; simp [renderAll, join]
    | cons w r => rw [if_pos (by simp)]; simp [renderAll, join]

end

end Rpp
