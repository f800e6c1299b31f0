import Verif.Proof.Format

/-! The measuring pass computes the length of the text, and the text is the rendering. -/

namespace Rpp
open Rpp.Spec Rpp.Fmt

theorem len0 : (lit "void").length = 4 := by decide +kernel
theorem len1 : (lit "true").length = 4 := by decide +kernel
theorem len2 : (lit "false").length = 5 := by decide +kernel
theorem len3 : (lit "(null)").length = 6 := by decide +kernel
theorem len4 : (lit "[").length = 1 := by decide +kernel
theorem len5 : (lit "Vec[").length = 4 := by decide +kernel
theorem len6 : (lit "Queue[").length = 6 := by decide +kernel
theorem len7 : (lit "Stack[").length = 6 := by decide +kernel
theorem len8 : (lit "Heap[").length = 5 := by decide +kernel
theorem len9 : (lit "Slice[").length = 6 := by decide +kernel
theorem len10 : (lit "Map[").length = 4 := by decide +kernel
theorem len11 : (lit "{").length = 1 := by decide +kernel
theorem len12 : (lit " : ").length = 3 := by decide +kernel
theorem len13 : (lit ", ").length = 2 := by decide +kernel
theorem len14 : (lit "::").length = 2 := by decide +kernel
theorem len15 : (lit "Opt{").length = 4 := by decide +kernel
theorem len16 : (lit "Box{").length = 4 := by decide +kernel
theorem len17 : (lit "Ref{").length = 4 := by decide +kernel
theorem len18 : (lit "Opt{None}").length = 9 := by decide +kernel
theorem len19 : (lit "Box{null}").length = 9 := by decide +kernel
theorem len20 : (lit "Ref{null}").length = 9 := by decide +kernel
theorem len21 : (lit "Rc[").length = 3 := by decide +kernel
theorem len22 : (lit "]{").length = 2 := by decide +kernel
theorem len23 : (lit "Rc{null}").length = 8 := by decide +kernel
theorem len24 : (lit "Arc[").length = 4 := by decide +kernel
theorem len25 : (lit "Arc{null}").length = 9 := by decide +kernel
theorem len26 : (lit "Pair{").length = 5 := by decide +kernel
theorem len27 : (lit "Tuple{").length = 6 := by decide +kernel
theorem len28 : (lit "Variant{").length = 8 := by decide +kernel
theorem len29 : (lit "Storage<").length = 8 := by decide +kernel
theorem len30 : (lit "Function{").length = 9 := by decide +kernel
theorem len31 : (lit "Vec").length = 3 := by decide +kernel
theorem len32 : (lit "i{").length = 2 := by decide +kernel
theorem len33 : (lit "u{").length = 2 := by decide +kernel
theorem len34 : (lit "Mat4{").length = 5 := by decide +kernel
theorem len35 : (lit "Quat{").length = 5 := by decide +kernel
theorem len36 : (lit "BBox{{").length = 6 := by decide +kernel
theorem len37 : (lit "}, {").length = 4 := by decide +kernel
theorem len38 : (lit "}}").length = 2 := by decide +kernel

theorem modc {a b : Nat} (h : a = b) : a % 2 ^ 64 = b % 2 ^ 64 := by rw [h]

theorem wadd_mod (a b : Nat) : wadd (a % 2 ^ 64) (b % 2 ^ 64) = (a + b) % 2 ^ 64 := by
  unfold wadd; rw [Nat.add_mod_mod, Nat.mod_add_mod]

theorem digits_length : ∀ f n, (digits f n).length ≤ f
  | 0, _ => by simp [digits]
  | f + 1, n => by
    unfold digits
    split
    · simp
    · have := digits_length f (n / 10)
      simp; omega

theorem intText_length (n : Int) : (intText n).length ≤ 21 := by
  unfold intText
  split
  · have := digits_length 20 n.natAbs
    simp; omega
  · have := digits_length 20 n.natAbs
    omega

theorem measureCases_eq (value : Int) : ∀ cases, measureCases value cases =
    (textCases value cases).length % 2 ^ 64
  | [] => by simp [measureCases, textCases]
  | (name, check) :: r => by
    unfold measureCases textCases
    rw [measureCases_eq value r, List.length_append]
    unfold wadd
    rw [Nat.add_mod_mod]
    split <;> rfl

theorem textNames_length : ∀ names j, (textNames j (j + names.length) names).length =
    (names.map List.length).sum + 2 * (names.length - 1)
  | [], _ => by simp [textNames]
  | t :: r, j => by
    unfold textNames
    have ih := textNames_length r (j + 1)
    rw [show j + (t :: r).length = j + 1 + r.length by simp; omega]
    simp only [List.length_append, ih, List.map_cons, List.sum_cons, List.length_cons]
    split
    · rw [len13]; omega
    · simp only [List.length_nil]; omega

theorem measureNames_eq : ∀ names, measureNames names = (names.map List.length).sum % 2 ^ 64
  | [] => by simp [measureNames]
  | t :: r => by
    unfold measureNames
    rw [measureNames_eq r]
    unfold wadd
    rw [Nat.add_mod_mod]
    simp

theorem textItems_length : ∀ vs j, (textItems j (j + vs.length) vs).length =
    (vs.map (fun v => (text v).length)).sum + 2 * (vs.length - 1)
  | [], _ => by simp [textItems]
  | t :: r, j => by
    unfold textItems
    have ih := textItems_length r (j + 1)
    rw [show j + (t :: r).length = j + 1 + r.length by simp; omega]
    simp only [List.length_append, ih, List.map_cons, List.sum_cons, List.length_cons]
    split
    · rw [len13]; omega
    · simp only [List.length_nil]; omega

theorem measureRow_eq (a b c d : Nat) : measureRow (a % 2 ^ 64) (b % 2 ^ 64) (c % 2 ^ 64) (d % 2 ^ 64) =
    (a + b + c + d + 8) % 2 ^ 64 := by
  unfold measureRow wadd
  simp only [Nat.add_mod_mod, Nat.mod_add_mod]
  refine modc ?_; omega

theorem measureRows_eq (a b c d : Nat) : wadd (wadd (wadd (wadd (wadd (wadd (wadd 6
    (a % 2 ^ 64)) 2) (b % 2 ^ 64)) 2) (c % 2 ^ 64)) 2) (d % 2 ^ 64) = (a + b + c + d + 12) % 2 ^ 64 := by
  unfold wadd
  simp only [Nat.add_mod_mod, Nat.mod_add_mod]
  refine modc ?_; omega

mutual

theorem measure_eq : ∀ (v : Val), Every ValidPart v → measure v = (text v).length % 2 ^ 64
  | .void, _ => by unfold Fmt.measure text; rw [len0]
  | .char c, _ => by unfold Fmt.measure text; simp
  | .int n, _ => by
    unfold Fmt.measure text
    have := intText_length n
    omega
  | .float t, h => by
    unfold Fmt.measure text
    unfold Every at h
    have : t.length < 2 ^ 31 := h
    omega
  | .bool b, _ => by unfold Fmt.measure text; cases b <;> simp [len1, len2]
  | .ptr none, _ => by unfold Fmt.measure text; simp [len3]
  | .ptr (some t), _ => by
    unfold Fmt.measure text wadd
    simp only [List.length_append, List.length_singleton]
    omega
  | .str v, h => by
    unfold Fmt.measure text
    unfold Every at h
    have h1 : v.Valid := h
    rw [View.bytes_length h1]
    have := h1.1; have := h1.2
    omega
  | .seq k items, h => by
    unfold Fmt.measure text
    unfold Every at h
    rw [measureItems_eq items h.2]
    simp only [wadd, Nat.add_mod_mod, List.length_append, List.length_singleton]
    refine modc ?_
    cases k <;>
      simp only [Seq.base, Seq.openText, len4, len5, len6, len7, len8, len9] <;> omega
  | .map n items, h => by
    unfold Fmt.measure text
    unfold Every at h
    rw [measureItems_eq items h.2]
    simp only [wadd, Nat.add_mod_mod, List.length_append, List.length_singleton, len10]
    refine modc ?_; omega
  | .item k v, h => by
    unfold Fmt.measure text
    unfold Every at h
    rw [measure_eq k h.2.1, measure_eq v h.2.2]
    simp only [wadd, Nat.add_mod_mod, Nat.mod_add_mod, List.length_append, List.length_singleton, len11,
      len12]
    refine modc ?_; omega
  | .record name fields, h => by
    unfold Fmt.measure text
    unfold Every at h
    rw [measureItems_eq fields h.2]
    simp only [wadd, Nat.add_mod_mod, Nat.mod_add_mod, List.length_append, List.length_singleton]
    refine modc ?_; omega
  | .field name v, h => by
    unfold Fmt.measure text
    unfold Every at h
    rw [measure_eq v h.2]
    simp only [wadd, Nat.add_mod_mod, Nat.mod_add_mod, List.length_append, len12]
    refine modc ?_; omega
  | .enum name cases value, _ => by
    unfold Fmt.measure text
    rw [measureCases_eq]
    simp only [wadd, Nat.add_mod_mod, Nat.mod_add_mod, List.length_append, len14]
    refine modc ?_; omega
  | .own k none, _ => by
    unfold Fmt.measure text
    cases k <;> simp [Ptr.nullText, len18, len19, len20]
  | .own k (some v), h => by
    unfold Fmt.measure text
    unfold Every at h
    rw [measure_eq v h.2]
    simp only [wadd, Nat.add_mod_mod, List.length_append, List.length_singleton]
    refine modc ?_
    cases k <;> simp only [Ptr.openText, len15, len16, len17] <;> omega
  | .rc none _, _ => by unfold Fmt.measure text; simp [len23]
  | .rc (some v) refs, h => by
    unfold Fmt.measure text
    unfold Every at h
    rw [measure_eq v h.2]
    simp only [wadd, Nat.add_mod_mod, Nat.mod_add_mod, List.length_append, List.length_singleton, len21,
      len22]
    refine modc ?_; omega
  | .arc none _, _ => by unfold Fmt.measure text; simp [len25]
  | .arc (some v) refs, h => by
    unfold Fmt.measure text
    unfold Every at h
    rw [measure_eq v h.2]
    simp only [wadd, Nat.add_mod_mod, Nat.mod_add_mod, List.length_append, List.length_singleton, len24,
      len22]
    refine modc ?_; omega
  | .pair l r, h => by
    unfold Fmt.measure text
    unfold Every at h
    rw [measure_eq l h.2.1, measure_eq r h.2.2]
    simp only [wadd, Nat.add_mod_mod, Nat.mod_add_mod, List.length_append, List.length_singleton, len26,
      len13]
    refine modc ?_; omega
  | .tuple items, h => by
    unfold Fmt.measure text
    unfold Every at h
    rw [measureAll_eq items h.2]
    have hl := textItems_length items 0
    rw [Nat.zero_add] at hl
    simp only [List.length_append, List.length_singleton, len27, hl]
    by_cases h1 : items.length > 1
    · rw [if_pos h1]
      simp only [wadd, wmul, Nat.add_mod_mod, Nat.mod_add_mod]
      refine modc ?_; omega
    · rw [if_neg h1]
      simp only [wadd, Nat.add_mod_mod]
      refine modc ?_; omega
  | .variant v, h => by
    unfold Fmt.measure text
    unfold Every at h
    rw [measure_eq v h.2]
    simp only [wadd, Nat.add_mod_mod, List.length_append, List.length_singleton, len28]
    refine modc ?_; omega
  | .named name v, h => by
    unfold Fmt.measure text
    unfold Every at h
    rw [measure_eq v h.2]
    simp only [wadd, Nat.add_mod_mod, Nat.mod_add_mod, List.length_append, List.length_singleton]
    refine modc ?_; omega
  | .storage name, _ => by
    unfold Fmt.measure text
    simp only [wadd, List.length_append, List.length_singleton, len29]
    refine modc ?_; omega
  | .fn ret args, _ => by
    unfold Fmt.measure text
    have hl := textNames_length args 0
    rw [Nat.zero_add] at hl
    simp only [List.length_append, List.length_singleton, len30, hl, measureNames_eq]
    by_cases h1 : args.length > 1
    · rw [if_pos h1, if_pos (by omega)]
      simp only [wadd, wmul, Nat.add_mod_mod, Nat.mod_add_mod]
      refine modc ?_; omega
    · rw [if_neg h1]
      by_cases h0 : args.length > 0
      · rw [if_pos h0]
        simp only [wadd, Nat.add_mod_mod, Nat.mod_add_mod]
        refine modc ?_; omega
      · rw [if_neg h0]
        have : args = [] := List.eq_nil_of_length_eq_zero (by omega)
        subst this
        simp only [wadd, Nat.mod_add_mod, List.map_nil, List.sum_nil, List.length_nil]
        refine modc ?_; omega
  | .vecF items, h => by
    unfold Fmt.measure text
    unfold Every at h
    rw [measureItems_eq items h.2]
    simp only [wadd, Nat.add_mod_mod, Nat.mod_add_mod, List.length_append, List.length_singleton, len31]
    refine modc ?_; omega
  | .vecI signed items, h => by
    unfold Fmt.measure text
    unfold Every at h
    rw [measureItems_eq items h.2]
    simp only [wadd, Nat.add_mod_mod, Nat.mod_add_mod, List.length_append, List.length_singleton, len31]
    refine modc ?_
    cases signed <;> simp only [if_true, Bool.false_eq_true, if_false, len32, len33] <;> omega
  | .mat4 x0 x1 x2 x3 y0 y1 y2 y3 z0 z1 z2 z3 w0 w1 w2 w3, h => by
    unfold Fmt.measure text
    unfold Every at h
    obtain ⟨_, ⟨hx0, hx1, hx2, hx3⟩, ⟨hy0, hy1, hy2, hy3⟩, ⟨hz0, hz1, hz2, hz3⟩, hw0, hw1, hw2, hw3⟩ := h
    rw [measure_eq x0 hx0, measure_eq x1 hx1, measure_eq x2 hx2, measure_eq x3 hx3,
      measure_eq y0 hy0, measure_eq y1 hy1, measure_eq y2 hy2, measure_eq y3 hy3,
      measure_eq z0 hz0, measure_eq z1 hz1, measure_eq z2 hz2, measure_eq z3 hz3,
      measure_eq w0 hw0, measure_eq w1 hw1, measure_eq w2 hw2, measure_eq w3 hw3]
    rw [measureRow_eq, measureRow_eq, measureRow_eq, measureRow_eq, measureRows_eq]
    simp only [List.length_append, List.length_singleton, len34, len13]
    refine modc ?_; omega
  | .quat x y z w, h => by
    unfold Fmt.measure text
    unfold Every at h
    obtain ⟨_, hx, hy, hz, hw⟩ := h
    rw [measure_eq x hx, measure_eq y hy, measure_eq z hz, measure_eq w hw]
    simp only [wadd, Nat.add_mod_mod, Nat.mod_add_mod, List.length_append, List.length_singleton, len35,
      len13]
    refine modc ?_; omega
  | .bbox x y z x' y' z', h => by
    unfold Fmt.measure text
    unfold Every at h
    obtain ⟨_, ⟨hx, hy, hz⟩, hx', hy', hz'⟩ := h
    rw [measure_eq x hx, measure_eq y hy, measure_eq z hz, measure_eq x' hx', measure_eq y' hy',
      measure_eq z' hz']
    simp only [wadd, Nat.add_mod_mod, Nat.mod_add_mod, List.length_append, len36,
      len13, len37, len38]
    refine modc ?_; omega

theorem measureItems_eq : ∀ (vs : List Val), EveryOf ValidPart vs → ∀ j n,
    measureItems j n vs = (textItems j n vs).length % 2 ^ 64
  | [], _, _, _ => by unfold measureItems textItems; simp
  | v :: r, h, j, n => by
    unfold measureItems textItems
    unfold EveryOf at h
    rw [measure_eq v h.1, measureItems_eq r h.2]
    simp only [wadd, Nat.add_mod_mod, Nat.mod_add_mod, List.length_append]
    refine modc ?_
    split
    · rw [len13]; omega
    · simp only [List.length_nil]; omega

theorem measureAll_eq : ∀ (vs : List Val), EveryOf ValidPart vs →
    measureAll vs = (vs.map (fun v => (text v).length)).sum % 2 ^ 64
  | [], _ => by simp [measureAll]
  | v :: r, h => by
    unfold measureAll
    unfold EveryOf at h
    rw [measure_eq v h.1, measureAll_eq r h.2]
    simp only [wadd, Nat.add_mod_mod, Nat.mod_add_mod, List.map_cons, List.sum_cons]

end

end Rpp
