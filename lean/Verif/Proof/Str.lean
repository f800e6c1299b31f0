import Verif.Spec.Str

/-! Lemmas on the string model. -/

namespace Rpp
open Rpp.Spec

theorem View.bytes_length {v : View} (h : v.Valid) : v.bytes.length = v.len := by
  unfold View.bytes
  have := h.1
  simp; omega

theorem View.raw_eq {v : View} (h : v.Valid) {i : Nat} (hi : i < v.len) :
    v.raw i = .ok (v.bytes[i]'(by rw [View.bytes_length h]; exact hi)) := by
  unfold View.raw
  have := h.1
  rw [List.getElem?_eq_getElem (by omega)]
  simp [View.bytes]

theorem View.at_eq {v : View} (h : v.Valid) {i : Nat} (hi : i < v.len) :
    v.at' i = .ok (v.bytes[i]'(by rw [View.bytes_length h]; exact hi)) := by
  unfold View.at'
  rw [if_pos hi, View.raw_eq h hi]

theorem View.of_valid {s : List Byte} (h : s.length < 2 ^ 63) : (View.of s).Valid := by
  constructor
  · simp [View.of]
  · simpa [View.of] using h

theorem View.of_bytes (s : List Byte) : (View.of s).bytes = s := by
  simp [View.of, View.bytes]

/-! ### `operator==` -/

theorem strncmpEq_spec {a b : View} (ha : a.Valid) (hb : b.Valid) (hl : a.len = b.len) :
    ∀ n i, i + n = a.len →
      View.strncmpEq a b i n =
        .ok (decide (cstr (a.bytes.drop i) = cstr (b.bytes.drop i))) := by
  have la := View.bytes_length ha
  have lb := View.bytes_length hb
  intro n
  induction n with
  | zero =>
    intro i hi
    rw [List.drop_eq_nil_of_le (by omega), List.drop_eq_nil_of_le (by omega)]
    simp [View.strncmpEq]
  | succ n ih =>
    intro i hi
    have e1 := View.raw_eq ha (i := i) (by omega)
    have e2 := View.raw_eq hb (i := i) (by omega)
    have d1 := List.drop_eq_getElem_cons (l := a.bytes) (i := i) (by omega)
    have d2 := List.drop_eq_getElem_cons (l := b.bytes) (i := i) (by omega)
    simp only [View.strncmpEq, e1, e2, bind, Except.bind]
    rw [d1, d2]
    generalize a.bytes[i]'(by omega) = x
    generalize b.bytes[i]'(by omega) = y
    have ih := ih (i + 1) (by omega)
    unfold cstr at ih ⊢
    by_cases hxy : x = y
    · subst hxy
      rw [if_neg (by simp)]
      by_cases hx : x = 0#8
      · subst hx
        rw [if_pos rfl]
        simp [List.takeWhile, pure, Except.pure]
      · rw [if_neg hx, ih]
        simp [List.takeWhile, hx]
    · rw [if_pos hxy]
      simp only [pure, Except.pure]
      congr 1
      symm
      rw [decide_eq_false_iff_not]
      intro h
      by_cases hx : x = 0#8 <;> by_cases hy : y = 0#8
      · exact hxy (hx.trans hy.symm)
      · simp [List.takeWhile, hx, hy] at h
      · simp [List.takeWhile, hx, hy] at h
      · simp [List.takeWhile, hx, hy] at h; exact hxy h.1

/-- `operator==` compares lengths and the bytes up to the first zero byte. -/
theorem eq_spec {a b : View} (ha : a.Valid) (hb : b.Valid) :
    View.eq a b = .ok (decide (a.bytes.length = b.bytes.length ∧ cstr a.bytes = cstr b.bytes)) := by
  rw [View.bytes_length ha, View.bytes_length hb]
  unfold View.eq
  by_cases h : a.len = b.len
  · rw [if_neg (by simpa using h), strncmpEq_spec ha hb h _ _ (by omega)]
    simp [h]
  · rw [if_pos h]; simp [h]

theorem cstr_id {l : List Byte} (h : 0#8 ∉ l) : cstr l = l := by
  unfold cstr
  induction l with
  | nil => rfl
  | cons x l ih =>
    simp only [List.mem_cons, not_or] at h
    rw [List.takeWhile_cons_of_pos (by simpa using fun e => h.1 e.symm), ih h.2]

/-- Two byte lists of the same length, one free of zeros, that agree as C strings are equal. -/
theorem cstr_eq_of_free {a b : List Byte} (h : 0#8 ∉ a) (hl : a.length = b.length)
    (hc : cstr a = cstr b) : a = b := by
  rw [cstr_id h] at hc
  have h2 : (cstr b).length ≤ b.length := List.Sublist.length_le (List.takeWhile_sublist _)
  have hp : cstr b <+: b := List.takeWhile_prefix _
  rw [hc]
  exact hp.eq_of_length (by rw [← hc]; exact hl)

/-! ### `operator<` -/

theorem LexLt_cons {x y : Byte} {s t : List Byte} :
    LexLt (x :: s) (y :: t) ↔ x.toNat < y.toNat ∨ (x = y ∧ LexLt s t) := by
  constructor
  · rintro (⟨z, u, h⟩ | ⟨p, x', y', s', t', h1, h2, h3⟩)
    · rw [List.cons_append, List.cons.injEq] at h
      exact .inr ⟨h.1.symm, .inl ⟨z, u, h.2⟩⟩
    · cases p with
      | nil =>
        rw [List.nil_append, List.cons.injEq] at h1 h2
        obtain ⟨rfl, rfl⟩ := h1
        obtain ⟨rfl, rfl⟩ := h2
        exact .inl h3
      | cons q p =>
        rw [List.cons_append, List.cons.injEq] at h1 h2
        exact .inr ⟨h1.1.trans h2.1.symm, .inr ⟨p, x', y', s', t', h1.2, h2.2, h3⟩⟩
  · rintro (h | ⟨rfl, ⟨z, u, h⟩ | ⟨p, x', y', s', t', h1, h2, h3⟩⟩)
    · exact .inr ⟨[], x, y, s, t, rfl, rfl, h⟩
    · exact .inl ⟨z, u, by rw [h]; rfl⟩
    · exact .inr ⟨x :: p, x', y', s', t', by rw [h1]; rfl, by rw [h2]; rfl, h3⟩

theorem LexLt_nil {b : List Byte} : LexLt [] b ↔ b ≠ [] := by
  constructor
  · rintro (⟨z, u, h⟩ | ⟨p, x', y', s', t', h1, _⟩)
    · rw [h]; simp
    · simp at h1
  · intro h
    cases b with
    | nil => exact absurd rfl h
    | cons y t => exact .inl ⟨y, t, rfl⟩

theorem not_LexLt_nil {a : List Byte} : ¬ LexLt a [] := by
  rintro (⟨z, u, h⟩ | ⟨p, x', y', s', t', _, h2, _⟩) <;> simp_all

theorem ltLoop_spec {a b : View} (ha : a.Valid) (hb : b.Valid) :
    ∀ n i, i + n = min a.len b.len →
      ∃ o, View.ltLoop a b i n = .ok o ∧
        (LexLt (a.bytes.drop i) (b.bytes.drop i) ↔
          o = some true ∨ (o = none ∧ a.len < b.len)) := by
  have la := View.bytes_length ha
  have lb := View.bytes_length hb
  intro n
  induction n with
  | zero =>
    intro i hi
    refine ⟨none, rfl, ?_⟩
    by_cases hc : a.len < b.len
    · rw [List.drop_eq_nil_of_le (as := a.bytes) (by omega), LexLt_nil]
      simp only [ne_eq, List.drop_eq_nil_iff]
      constructor
      · intro _; exact .inr ⟨trivial, hc⟩
      · intro _; omega
    · rw [List.drop_eq_nil_of_le (as := b.bytes) (by omega)]
      simp [not_LexLt_nil, hc]
  | succ n ih =>
    intro i hi
    have e1 := View.at_eq ha (i := i) (by omega)
    have e2 := View.at_eq hb (i := i) (by omega)
    have d1 := List.drop_eq_getElem_cons (l := a.bytes) (i := i) (by omega)
    have d2 := List.drop_eq_getElem_cons (l := b.bytes) (i := i) (by omega)
    simp only [View.ltLoop, e1, e2, bind, Except.bind]
    rw [d1, d2]
    generalize a.bytes[i]'(by omega) = x
    generalize b.bytes[i]'(by omega) = y
    obtain ⟨o, ho, hs⟩ := ih (i + 1) (by omega)
    rw [LexLt_cons]
    by_cases h1 : x < y
    · rw [if_pos h1]
      refine ⟨some true, rfl, ?_⟩
      have : x.toNat < y.toNat := BitVec.lt_def.mp h1
      simp [this]
    · rw [if_neg h1]
      have hn : ¬ x.toNat < y.toNat := fun h => h1 (BitVec.lt_def.mpr h)
      by_cases h2 : x > y
      · rw [if_pos h2]
        refine ⟨some false, rfl, ?_⟩
        have h3 : y.toNat < x.toNat := BitVec.lt_def.mp h2
        have : x ≠ y := by intro e; subst e; omega
        simp [hn, this]
      · rw [if_neg h2]
        have h3 : ¬ y.toNat < x.toNat := fun h => h2 (BitVec.lt_def.mpr h)
        have : x = y := BitVec.eq_of_toNat_eq (by omega)
        refine ⟨o, ho, ?_⟩
        rw [← hs]
        simp [hn, this]

theorem lt_spec {a b : View} (ha : a.Valid) (hb : b.Valid) :
    ∃ r, View.lt a b = .ok r ∧ (r = true ↔ LexLt a.bytes b.bytes) := by
  have hm : 0 + (if a.len < b.len then a.len else b.len) = min a.len b.len := by
    split <;> omega
  obtain ⟨o, ho, hs⟩ := ltLoop_spec ha hb _ 0 hm
  simp only [List.drop_zero] at hs
  unfold View.lt
  simp only [bind, Except.bind, ho]
  cases o with
  | none => exact ⟨_, rfl, by rw [hs]; simp⟩
  | some c => exact ⟨c, rfl, by rw [hs]; simp⟩

theorem LexLt_irrefl : ∀ a : List Byte, ¬ LexLt a a := by
  intro a
  induction a with
  | nil => exact not_LexLt_nil
  | cons x s ih => rw [LexLt_cons]; simp [ih]

theorem LexLt_trans : ∀ a b c : List Byte, LexLt a b → LexLt b c → LexLt a c := by
  intro a
  induction a with
  | nil =>
    intro b c _ h
    rw [LexLt_nil]
    intro e; subst e; exact not_LexLt_nil h
  | cons x s ih =>
    intro b c h1 h2
    cases b with
    | nil => exact absurd h1 not_LexLt_nil
    | cons y t =>
      cases c with
      | nil => exact absurd h2 not_LexLt_nil
      | cons z u =>
        rw [LexLt_cons] at *
        rcases h1 with h1 | ⟨rfl, h1⟩ <;> rcases h2 with h2 | ⟨rfl, h2⟩
        · exact .inl (by omega)
        · exact .inl h1
        · exact .inl h2
        · exact .inr ⟨rfl, ih _ _ h1 h2⟩

theorem LexLt_tri : ∀ a b : List Byte, LexLt a b ∨ a = b ∨ LexLt b a := by
  intro a
  induction a with
  | nil =>
    intro b
    cases b with
    | nil => exact .inr (.inl rfl)
    | cons y t => exact .inl (LexLt_nil.mpr (by simp))
  | cons x s ih =>
    intro b
    cases b with
    | nil => exact .inr (.inr (LexLt_nil.mpr (by simp)))
    | cons y t =>
      simp only [LexLt_cons]
      rcases Nat.lt_trichotomy x.toNat y.toNat with h | h | h
      · exact .inl (.inl h)
      · have := BitVec.eq_of_toNat_eq h
        subst this
        rcases ih t with h | rfl | h
        · exact .inl (.inr ⟨rfl, h⟩)
        · exact .inr (.inl rfl)
        · exact .inr (.inr (.inr ⟨rfl, h⟩))
      · exact .inr (.inr (.inl h))

/-! ### Path splitting -/

theorem scanBack_spec {v : View} (hv : v.Valid) (q : Byte → Bool) :
    ∀ n, n < v.len → ∃ i f, View.scanBack v q n = .ok (i, f) ∧ i ≤ n ∧
      (f = false → i = 0) ∧
      (∀ k, (hk : k < v.bytes.length) → i < k → k ≤ n → q v.bytes[k] = false) ∧
      (f = true → 0 < i ∧ ∃ h : i < v.bytes.length, q v.bytes[i] = true) := by
  have lv := View.bytes_length hv
  intro n
  induction n with
  | zero =>
    intro _
    exact ⟨0, false, rfl, by omega, fun _ => rfl, fun k _ h1 h2 => by omega, by simp⟩
  | succ n ih =>
    intro hn
    have e := View.raw_eq hv hn
    simp only [View.scanBack, e, bind, Except.bind]
    by_cases hq : q (v.bytes[n + 1]'(by omega)) = true
    · rw [if_pos hq]
      exact ⟨n + 1, true, rfl, by omega, by simp, fun k _ h1 h2 => by omega,
        fun _ => ⟨by omega, by omega, hq⟩⟩
    · rw [if_neg hq]
      obtain ⟨i, f, h1, h2, h3, h4, h5⟩ := ih (by omega)
      refine ⟨i, f, h1, by omega, h3, ?_, h5⟩
      intro k hk h6 h7
      by_cases hk1 : k = n + 1
      · subst hk1; simpa using hq
      · exact h4 k hk h6 (by omega)

theorem wsub_eq {a b : Nat} (h : b ≤ a) (ha : a < 2 ^ 64) : wsub a b = a - b := by
  unfold wsub
  rw [Nat.mod_eq_of_lt (a := b) (by omega),
    show a + (2 ^ 64 - b) = (a - b) + 2 ^ 64 by omega, Nat.add_mod_right, Nat.mod_eq_of_lt (by omega)]

theorem wadd_eq {a b : Nat} (h : a + b < 2 ^ 64) : wadd a b = a + b := Nat.mod_eq_of_lt h

/-- Bytes of a sub-view. -/
theorem View.sub_bytes (v : View) (a n : Nat) (h : a + n ≤ v.len) :
    (View.mk v.mem (v.off + a) n).bytes = (v.bytes.drop a).take n := by
  unfold View.bytes
  simp only
  rw [List.drop_take, List.drop_drop, List.take_take]
  congr 1; omega

theorem View.sub_valid {v : View} (hv : v.Valid) {a n : Nat} (h : a + n ≤ v.len) :
    (View.mk v.mem (v.off + a) n).Valid := by
  have := hv.1
  exact ⟨by simp only; omega, hv.2⟩

/-- What `file_suffix`, `file_extension` and `remove_file_suffix` have in common: the cut point
`c`. -/
theorem cut_spec {v : View} (hv : v.Valid) (h0 : v.len ≠ 0) (q : Byte → Bool) :
    ∃ i f, View.scanBack v q (v.len - 1) = .ok (i, f) ∧
      i + (if f then 1 else 0) ≤ v.len ∧
      (∀ b ∈ v.bytes.drop (i + 1), q b = false) ∧
      (f = false → i = 0) ∧
      (f = true → 0 < i ∧ ∃ h : i < v.bytes.length, q v.bytes[i] = true) := by
  have lv := View.bytes_length hv
  obtain ⟨i, f, h1, h2, h3, h4, h5⟩ := scanBack_spec hv q (v.len - 1) (by omega)
  refine ⟨i, f, h1, by split <;> omega, ?_, h3, h5⟩
  intro b hb
  obtain ⟨k, hk, rfl⟩ := List.mem_iff_getElem.mp hb
  rw [List.length_drop] at hk
  rw [List.getElem_drop]
  exact h4 _ (by omega) (by omega) (by omega)

/-! ### Buffers -/

theorem bytesOf_spec {v : View} (hv : v.Valid) : Str.bytesOf v = .ok v.bytes := by
  unfold Str.bytesOf
  by_cases h : v.len = 0
  · rw [if_pos h]
    unfold View.bytes
    rw [h]; rfl
  · rw [if_neg h, if_pos hv.1]; rfl

theorem copyIn_spec {s : Str} {i : Nat} {t : List Byte} (h : i + t.length ≤ s.buf.length) :
    Str.copyIn s i t =
      .ok { s with buf := s.buf.take i ++ t.map some ++ s.buf.drop (i + t.length) } := by
  unfold Str.copyIn
  by_cases h0 : t.length = 0
  · rw [if_pos h0]
    have : t = [] := List.length_eq_zero_iff.mp h0
    subst this
    simp
  · rw [if_neg h0, if_pos h]

end Rpp
