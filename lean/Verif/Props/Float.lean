import Verif.Proof.Float

/-!
# C129: selecting among floating point numbers

`x.key` is the place of a number in the order of the real numbers and the infinities; `I` is the magnitude of infinity.
-/

namespace Rpp.Props
open Rpp.Flt

variable {I : Nat}

/-- Of two numbers that are not NaN, `min` and `max` return one that is lowest or highest. -/
theorem C129_min_max {a b : F} (ha : a.isNan I = false) (hb : b.isNan I = false) :
    ((fmin I a b = a ∨ fmin I a b = b) ∧ (fmin I a b).key ≤ a.key ∧ (fmin I a b).key ≤ b.key) ∧
    ((fmax I a b = a ∨ fmax I a b = b) ∧ a.key ≤ (fmax I a b).key ∧ b.key ≤ (fmax I a b).key) :=
  min_max ha hb

/-- If one of them is NaN, the result is the second one. -/
theorem C129_nan {a b : F} (h : a.isNan I = true ∨ b.isNan I = true) : fmin I a b = b ∧ fmax I a b = b :=
  sel_nan h

/-- `clamp` of numbers and of vectors: whatever `x` is, the result is between the bounds. It is as near to `x` as the bounds
allow; for NaN the one returns the lower bound and the other the upper one. -/
theorem C129_clamp {x lo hi : F} (hl : lo.isNan I = false) (hh : hi.isNan I = false) (h : lo.key ≤ hi.key) :
    (clamp I x lo hi).isNan I = false ∧ lo.key ≤ (clamp I x lo hi).key ∧ (clamp I x lo hi).key ≤ hi.key ∧
    (clampV I x lo hi).isNan I = false ∧ lo.key ≤ (clampV I x lo hi).key ∧ (clampV I x lo hi).key ≤ hi.key ∧
    (x.isNan I = false → (clamp I x lo hi).key = Max.max lo.key (Min.min x.key hi.key) ∧ (clampV I x lo hi).key = (clamp I x lo hi).key) ∧
    (x.isNan I = true → (clamp I x lo hi).key = lo.key ∧ (clampV I x lo hi).key = hi.key) := by
  cases hx : x.isNan I with
  | true =>
    have e1 : clamp I x lo hi = fmin I lo hi := by unfold clamp; rw [(C129_nan (.inl hx)).2]
    have e2 : clampV I x lo hi = fmax I hi lo := by unfold clampV; rw [(C129_nan (.inl hx)).1]
    rw [e1, e2]
    unfold fmin fmax
    rw [lt_of hl hh]
    by_cases h1 : lo.key < hi.key
    · simp [h1, hl, hh]; omega
    · simp [h1, hl, hh]; omega
  | false =>
    have e1 : fmax I x lo = if lo.key < x.key then x else lo := by unfold fmax; rw [lt_of hl hx]; simp
    have e2 : fmin I x hi = if x.key < hi.key then x else hi := by unfold fmin; rw [lt_of hx hh]; simp
    unfold clamp clampV
    rw [e1, e2]
    by_cases h1 : lo.key < x.key
    · by_cases h2 : x.key < hi.key
      · rw [if_pos h1, if_pos h2]
        unfold fmin fmax
        rw [lt_of hx hh, lt_of hl hx]
        simp [h1, h2, hx]; omega
      · rw [if_pos h1, if_neg h2]
        unfold fmin fmax
        rw [lt_of hx hh, lt_of hl hh]
        by_cases h3 : lo.key < hi.key
        · simp [h2, h3, hh]; omega
        · simp [h2, h3, hh, hl]; omega
    · by_cases h2 : x.key < hi.key
      · rw [if_neg h1, if_pos h2]
        unfold fmin fmax
        rw [lt_of hl hh, lt_of hl hx]
        by_cases h3 : lo.key < hi.key
        · simp [h1, h3, hl]; omega
        · simp [h1, h3, hh, hl]; omega
      · rw [if_neg h1, if_neg h2]
        unfold fmin fmax
        rw [lt_of hl hh]
        by_cases h3 : lo.key < hi.key
        · simp [h3, hl, hh]; omega
        · simp [h3, hh, hl]; omega

/-- **C129, partial.** Without NaN, and if some number is below infinity (above minus infinity), the list versions return
one of the numbers, at the place of the lowest (highest). Full statement: so for every list. Missing because false:
`C129_list_false`. -/
theorem C129_list_partial {l : List F} (hn : ∀ x ∈ l, x.isNan I = false) :
    ((∃ x ∈ l, x.key ≤ (top I).key) → (∃ y ∈ l, (minList I l).key = y.key) ∧ ∀ x ∈ l, (minList I l).key ≤ x.key) ∧
    ((∃ x ∈ l, (bottom I).key ≤ x.key) → (∃ y ∈ l, (maxList I l).key = y.key) ∧ ∀ x ∈ l, x.key ≤ (maxList I l).key) := by
  constructor
  · intro ⟨x, hx, hk⟩
    obtain ⟨_, h2, h3, h4⟩ := fold_min l (top I) top_ok.1 hn
    refine ⟨?_, h3⟩
    rcases List.mem_cons.mp h4 with h | h
    · refine ⟨x, hx, ?_⟩
      have := h3 x hx
      unfold minList
      rw [h] at this ⊢
      omega
    · exact ⟨_, h, rfl⟩
  · intro ⟨x, hx, hk⟩
    obtain ⟨_, h2, h3, h4⟩ := fold_max l (bottom I) top_ok.2 hn
    refine ⟨?_, h3⟩
    rcases List.mem_cons.mp h4 with h | h
    · refine ⟨x, hx, ?_⟩
      have := h3 x hx
      unfold maxList
      rw [h] at this ⊢
      omega
    · exact ⟨_, h, rfl⟩

/-- With a NaN in the list, everything before it is forgotten: the result is NaN if it is the last, and otherwise comes
from the numbers behind the last NaN. -/
theorem C129_list_nan {n : F} (hn : n.isNan I = true) (l : List F) :
    minList I (l ++ [n]) = n ∧ maxList I (l ++ [n]) = n ∧
    ∀ x r, minList I (l ++ n :: x :: r) = r.foldl (fmin I) x ∧ maxList I (l ++ n :: x :: r) = r.foldl (fmax I) x := by
  have h1 : ∀ a, fmin I a n = n := fun a => (C129_nan (.inr hn)).1
  have h2 : ∀ a, fmax I a n = n := fun a => (C129_nan (.inr hn)).2
  refine ⟨?_, ?_, fun x r => ⟨?_, ?_⟩⟩
  · simp [minList, h1]
  · simp [maxList, h2]
  · simp [minList, h1, (C129_nan (b := x) (.inl hn)).1]
  · simp [maxList, h2, (C129_nan (b := x) (.inl hn)).2]

/-- `f32`: infinity, NaN, and the numbers 1 and 5. -/
def I32 : Nat := 0x7F800000
def inf : F := ⟨false, I32⟩
def nan : F := ⟨false, 0x7FC00000⟩
def one : F := ⟨false, 0x3F800000⟩
def five : F := ⟨false, 0x40A00000⟩

/-- **C129 is false**: the least of 1, NaN and 5 is 5, and the least of infinity alone is the largest finite number. -/
theorem C129_list_false : minList I32 [one, nan, five] = five ∧ one.key < five.key ∧ minList I32 [inf] = ⟨false, 0x7F7FFFFF⟩ := by
  decide

/-- Without NaN a box contains all points enclosed, and each bound is at one of them or at that of the empty box. -/
theorem C129_box_partial {l : List F} (hn : ∀ x ∈ l, x.isNan I = false) :
    (∀ x ∈ l, (l.foldl (enclose I) (box I)).1.key ≤ x.key ∧ x.key ≤ (l.foldl (enclose I) (box I)).2.key) ∧
    (l.foldl (enclose I) (box I)).1 ∈ top I :: l ∧ (l.foldl (enclose I) (box I)).2 ∈ bottom I :: l := by
  have e : ∀ (l : List F) (b : F × F), l.foldl (enclose I) b = (l.foldl (fmin I) b.1, l.foldl (fmax I) b.2) := by
    intro l
    induction l with
    | nil => intro b; rfl
    | cons x l ih => intro b; rw [List.foldl_cons, ih]; rfl
  rw [e]
  obtain ⟨_, _, h1, h2⟩ := fold_min l (top I) top_ok.1 hn
  obtain ⟨_, _, h3, h4⟩ := fold_max l (bottom I) top_ok.2 hn
  exact ⟨fun x hx => ⟨h1 x hx, h3 x hx⟩, h2, h4⟩

/-- **Boxes forget**: after a point with a NaN, the box is that of the points enclosed later, whatever came before. -/
theorem C129_box_nan {n x : F} (hn : n.isNan I = true) (b : F × F) (r : List F) :
    (n :: x :: r).foldl (enclose I) b = r.foldl (enclose I) (x, x) := by
  have h1 : enclose I (enclose I b n) x = (x, x) := by
    unfold enclose
    rw [(C129_nan (.inr hn)).1, (C129_nan (.inr hn)).2, (C129_nan (.inl hn)).1, (C129_nan (.inl hn)).2]
  rw [List.foldl_cons, List.foldl_cons, h1]

/-- The point 1 is not in the box of 1, NaN and 5. -/
theorem C129_box_false : [one, nan, five].foldl (enclose I32) (box I32) = (five, five) ∧ one.key < five.key := by decide

/-- SIMD vectors: the same as the functions on numbers unless a NaN is involved, where the other operand is returned. -/
theorem C129_simd (a b : F) :
    (a.isNan I = false → b.isNan I = false → minSimd I a b = fmin I a b ∧ maxSimd I a b = fmax I a b) ∧
    (a.isNan I = true → minSimd I a b = b ∧ maxSimd I a b = b) ∧
    (a.isNan I = false → b.isNan I = true → minSimd I a b = a ∧ maxSimd I a b = a ∧ fmin I a b = b ∧ fmax I a b = b) ∧
    (∀ x, a.isNan I = false → b.isNan I = false → clampSimd I x a b = clampV I x a b) := by
  refine ⟨fun ha hb => by simp [minSimd, maxSimd, ha, hb], fun ha => by simp [minSimd, maxSimd, ha], fun ha hb => ?_, fun x ha hb => ?_⟩
  · exact ⟨by simp [minSimd, ha, hb], by simp [maxSimd, ha, hb], (C129_nan (.inr hb)).1, (C129_nan (.inr hb)).2⟩
  · cases hx : x.isNan I with
    | true =>
      have e1 : minSimd I x b = b := by simp [minSimd, hx]
      have e2 : fmin I x b = b := (C129_nan (.inl hx)).1
      unfold clampSimd clampV
      rw [e1, e2]
      simp [maxSimd, ha, hb]
    | false =>
      have e1 : minSimd I x b = fmin I x b := by simp [minSimd, hx, hb]
      have e2 : (fmin I x b).isNan I = false := by
        rcases (C129_min_max hx hb).1.1 with h | h <;> rw [h]
        · exact hx
        · exact hb
      unfold clampSimd clampV
      rw [e1]
      simp [maxSimd, ha, e2]

/-- Unary minus with SIMD gives a number at the same place as without; the bits differ just for `+0`. -/
theorem C129_neg (x : F) : (neg x).key = -x.key ∧ (negSimd x).key = -x.key ∧ (negSimd x = neg x ↔ x ≠ ⟨false, 0⟩) := by
  obtain ⟨s, m⟩ := x
  refine ⟨by cases s <;> simp [neg, F.key], ?_, ?_⟩
  · by_cases h : m = 0
    · cases s <;> simp [negSimd, F.key, h]
    · cases s <;> simp [negSimd, neg, F.key, h]
  · by_cases h : m = 0
    · cases s <;> simp [negSimd, neg, h]
    · cases s <;> simp [negSimd, h]

/-- `sign` is that of the number, and 1 for NaN. -/
theorem C129_sign {x : F} : (x.isNan I = false → sign I x = x.key.sign) ∧ (x.isNan I = true → sign I x = 1) := by
  have h0 : (⟨false, 0⟩ : F).isNan I = false := by simp [F.isNan]
  have hk : (⟨false, 0⟩ : F).key = 0 := by simp [F.key]
  constructor
  · intro hx
    unfold sign eq
    rw [lt_of hx h0, hk]
    simp only [hx, h0, Bool.not_false, Bool.true_and, decide_eq_true_eq]
    by_cases h1 : x.key = 0
    · simp [h1]
    · rw [if_neg h1]
      by_cases h2 : x.key < 0
      · rw [if_pos h2, Int.sign_eq_neg_one_of_neg h2]
      · rw [if_neg h2, Int.sign_eq_one_of_pos (by omega)]
  · intro hx
    unfold sign
    rw [lt_nan (.inl hx)]
    simp [eq, hx]

/-- Numbers that meet the hypotheses: 1, 5 and minus zero. -/
example : minList I32 [five, one, ⟨true, 0⟩] = ⟨true, 0⟩ ∧ maxList I32 [one, five, inf] = inf ∧
    clamp I32 nan one five = one ∧ clampV I32 nan one five = five ∧
    negSimd ⟨false, 0⟩ = ⟨false, 0⟩ ∧ neg ⟨false, 0⟩ = ⟨true, 0⟩ ∧
    [five, one].foldl (enclose I32) (box I32) = (one, five) := by
  decide

end Rpp.Props
