import Verif.Proof.Str

/-!
# Properties of strings (`rpp/string0.h`, `rpp/string1.h`)
-/

namespace Rpp.Props
open Rpp Rpp.Spec

/-- **C39, what the code does.** `a == b` never fails, and is true exactly when the lengths agree and
the bytes agree *up to the first zero byte*. -/
theorem C39_eq_exact {a b : View} (ha : a.Valid) (hb : b.Valid) :
    ∃ r, View.eq a b = .ok r ∧
      (r = true ↔ a.bytes.length = b.bytes.length ∧ cstr a.bytes = cstr b.bytes) :=
  ⟨_, eq_spec ha hb, by simp⟩

/-- **C39** for strings of which one has no zero byte: `==` is equality of the contents. Missing from
the full property: strings with embedded zero bytes, for which it is false (`C39_false`). -/
theorem C39_eq_partial {a b : View} (ha : a.Valid) (hb : b.Valid)
    (h0 : 0#8 ∉ a.bytes ∨ 0#8 ∉ b.bytes) :
    ∃ r, View.eq a b = .ok r ∧ (r = true ↔ a.bytes = b.bytes) := by
  refine ⟨_, eq_spec ha hb, ?_⟩
  simp only [decide_eq_true_eq]
  constructor
  · rintro ⟨h1, h2⟩
    rcases h0 with h0 | h0
    · exact cstr_eq_of_free h0 h1 h2
    · exact (cstr_eq_of_free h0 h1.symm h2.symm).symm
  · intro h; rw [h]; exact ⟨rfl, rfl⟩

/-- `"a\0b"`. -/
def nulB : List Byte := [97#8, 0#8, 98#8]
/-- `"a\0c"`. -/
def nulC : List Byte := [97#8, 0#8, 99#8]

/-- **C39 is false of the code:** `"a\0b"_v == "a\0c"_v` is true. -/
theorem C39_false : (View.of nulB).Valid ∧ (View.of nulC).Valid ∧
    View.eq (View.of nulB) (View.of nulC) = .ok true ∧ (View.of nulB).bytes ≠ (View.of nulC).bytes := by
  unfold View.Valid; decide +kernel

example : View.eq (View.of (lit "abc")) ⟨lit "xabc", 1, 3⟩ = .ok true ∧
    View.eq (View.of (lit "abc")) (View.of (lit "abd")) = .ok false ∧
    0#8 ∉ (View.of (lit "abc")).bytes := by decide +kernel

/-- **C40.** `a < b` never fails and is the lexicographic order by unsigned byte. -/
theorem C40_lt_lexicographic {a b : View} (ha : a.Valid) (hb : b.Valid) :
    ∃ r, View.lt a b = .ok r ∧ (r = true ↔ LexLt a.bytes b.bytes) := lt_spec ha hb

/-- **C40.** `<` is a strict total order on contents: never `a < a`, transitive, and two strings with
different contents compare one way or the other. -/
theorem C40_lt_strict_total_order {a b c : View} (ha : a.Valid) (hb : b.Valid) (hc : c.Valid) :
    View.lt a a = .ok false ∧
    (View.lt a b = .ok true → View.lt b c = .ok true → View.lt a c = .ok true) ∧
    (a.bytes ≠ b.bytes → (View.lt a b = .ok true ∨ View.lt b a = .ok true)) ∧
    (a.bytes = b.bytes → View.lt a b = .ok false) := by
  obtain ⟨raa, eaa, haa⟩ := lt_spec ha ha
  obtain ⟨rab, eab, hab⟩ := lt_spec ha hb
  obtain ⟨rba, eba, hba⟩ := lt_spec hb ha
  obtain ⟨rbc, ebc, hbc⟩ := lt_spec hb hc
  obtain ⟨rac, eac, hac⟩ := lt_spec ha hc
  rw [eaa, eab, eba, ebc, eac]
  have hf : ∀ {r : Bool} {P : Prop}, (r = true ↔ P) → ¬ P → r = false := by
    intro r P h1 h2
    cases r with
    | false => rfl
    | true => exact absurd (h1.mp rfl) h2
  refine ⟨?_, ?_, ?_, ?_⟩
  · rw [hf haa (LexLt_irrefl _)]
  · intro h1 h2
    injection h1 with h1
    injection h2 with h2
    rw [hac.mpr (LexLt_trans _ _ _ (hab.mp h1) (hbc.mp h2))]
  · intro hne
    rcases LexLt_tri a.bytes b.bytes with h | h | h
    · left; rw [hab.mpr h]
    · exact absurd h hne
    · right; rw [hba.mpr h]
  · intro he
    rw [hf hab (by rw [he]; exact LexLt_irrefl _)]

example : View.lt (View.of (lit "ab")) (View.of (lit "abc")) = .ok true ∧
    View.lt (View.of (lit "abc")) (View.of (lit "abd")) = .ok true ∧
    View.lt (View.of [0xff#8]) (View.of [0x7f#8]) = .ok false ∧
    View.lt (View.of []) (View.of []) = .ok false := by decide +kernel

/-- **C41.** `remove_file_suffix(s)` followed by `file_suffix(s)` is `s`, for every `s`. -/
theorem C41_split_rejoins {v : View} (hv : v.Valid) :
    ∃ p f, View.remove_file_suffix v = .ok p ∧ View.file_suffix v = .ok f ∧
      p.bytes ++ f.bytes = v.bytes := by
  unfold View.remove_file_suffix View.file_suffix
  by_cases h0 : v.len = 0
  · refine ⟨View.null, View.null, by rw [if_pos h0]; rfl, by rw [if_pos h0]; rfl, ?_⟩
    simp [View.null, View.bytes, h0]
  · obtain ⟨i, f, h1, h2, _⟩ := cut_spec hv h0 View.isSep
    have hm := hv.2
    have hl := hv.1
    rw [if_neg h0, if_neg h0]
    simp only [h1, bind, Except.bind]
    refine ⟨_, _, rfl, rfl, ?_⟩
    rw [wsub_eq (b := i) (by omega) (by omega), wsub_eq (by omega) (by omega), Nat.add_assoc,
      View.sub_bytes v _ _ (by omega)]
    rw [show v.off = v.off + 0 from rfl, View.sub_bytes v 0 _ (by omega)]
    simp only [Nat.add_zero, List.drop_zero]
    rw [List.take_of_length_le (i := v.len - i - _)
      (by rw [List.length_drop, View.bytes_length hv]; omega)]
    exact List.take_append_drop _ _

/-- **C41.** None of the three functions fails, and each result lies within the memory of its argument. -/
theorem C41_views_valid {v : View} (hv : v.Valid) :
    (∃ p, View.remove_file_suffix v = .ok p ∧ p.Valid) ∧ (∃ f, View.file_suffix v = .ok f ∧ f.Valid) ∧
    ∃ e, View.file_extension v = .ok e ∧ e.Valid := by
  have hm := hv.2
  have hl := hv.1
  unfold View.remove_file_suffix View.file_suffix View.file_extension
  by_cases h0 : v.len = 0
  · rw [if_pos h0, if_pos h0, if_pos h0]
    have : View.null.Valid := by unfold View.Valid; decide
    exact ⟨⟨_, rfl, this⟩, ⟨_, rfl, this⟩, ⟨_, rfl, this⟩⟩
  · rw [if_neg h0, if_neg h0, if_neg h0]
    obtain ⟨i, f, h1, h2, _⟩ := cut_spec hv h0 View.isSep
    obtain ⟨j, g, h3, h4, _⟩ := cut_spec hv h0 (fun b => b = ch '.' || View.isSep b)
    simp only [h1, h3, bind, Except.bind]
    refine ⟨⟨_, rfl, ?_, hm⟩, ⟨_, rfl, ?_, hm⟩, ⟨_, rfl, ?_, hm⟩⟩
    · dsimp only; omega
    · dsimp only; rw [wsub_eq (b := i) (by omega) (by omega), wsub_eq (by omega) (by omega)]; omega
    · dsimp only; rw [wsub_eq (b := j) (by omega) (by omega), wsub_eq (by omega) (by omega)]; omega

/-- **C41** for paths whose last separator is not their first byte: `file_suffix` is what follows the
last separator and `remove_file_suffix` what precedes it, separator included; with no separator the
suffix is everything. Missing: paths whose only separator is the first byte (`C41_false`). -/
theorem C41_suffix_partial {v : View} (hv : v.Valid) :
    (∀ pre post, SplitLast Separator v.bytes pre post → 1 < pre.length →
      ∃ p f, View.remove_file_suffix v = .ok p ∧ View.file_suffix v = .ok f ∧
        p.bytes = pre ∧ f.bytes = post) ∧
    ((∀ b ∈ v.bytes, ¬ Separator b) →
      ∃ p f, View.remove_file_suffix v = .ok p ∧ View.file_suffix v = .ok f ∧
        p.bytes = [] ∧ f.bytes = v.bytes) := by
  have lv := View.bytes_length hv
  have hm := hv.2
  have hl := hv.1
  have hsep : ∀ b, View.isSep b = true ↔ Separator b := by
    intro b
    simp only [View.isSep, Separator, Bool.or_eq_true, decide_eq_true_eq]
    exact Or.comm
  -- both results in terms of the cut point
  have key : v.len ≠ 0 → ∃ i f, (∀ b ∈ v.bytes.drop (i + 1), ¬ Separator b) ∧
      i + (if f then 1 else 0) ≤ v.len ∧
      (f = false → i = 0) ∧ (f = true → 0 < i ∧ ∃ h : i < v.bytes.length, Separator v.bytes[i]) ∧
      ∃ p s, View.remove_file_suffix v = .ok p ∧ View.file_suffix v = .ok s ∧
        p.bytes = v.bytes.take (i + if f then 1 else 0) ∧
        s.bytes = v.bytes.drop (i + if f then 1 else 0) := by
    intro h0
    obtain ⟨i, f, h1, h2, h3, h4, h5⟩ := cut_spec hv h0 View.isSep
    refine ⟨i, f, ?_, h2, h4, ?_, ?_⟩
    · intro b hb he
      have := h3 b hb
      rw [(hsep b).mpr he] at this
      exact absurd this (by simp)
    · intro hf
      obtain ⟨a, b, c⟩ := h5 hf
      exact ⟨a, b, (hsep _).mp c⟩
    unfold View.remove_file_suffix View.file_suffix
    rw [if_neg h0, if_neg h0]
    simp only [h1, bind, Except.bind]
    refine ⟨_, _, rfl, rfl, ?_, ?_⟩
    · rw [show v.off = v.off + 0 from rfl, View.sub_bytes v 0 _ (by omega)]
      simp only [List.drop_zero]
    · rw [wsub_eq (b := i) (by omega) (by omega), wsub_eq (by omega) (by omega), Nat.add_assoc,
        View.sub_bytes v _ _ (by omega)]
      exact List.take_of_length_le (by rw [List.length_drop, View.bytes_length hv]; omega)
  constructor
  · rintro pre post ⟨e, hpost, p, b, hp, hb⟩ hlen
    have hlp : pre.length = p.length + 1 := by rw [hp]; simp
    have hvl : v.len = pre.length + post.length := by rw [← lv, e]; simp
    obtain ⟨i, f, h3, h2, h4, h5, pv, sv, e1, e2, b1, b2⟩ := key (by omega)
    have hat : ∀ h : p.length < v.bytes.length, v.bytes[p.length] = b := by
      intro h
      simp [e, hp]
    -- the last separator is at index `p.length`, so the scan stopped there
    have hi : i = p.length := by
      rcases Nat.lt_trichotomy i p.length with h | h | h
      · exfalso
        refine h3 b ?_ hb
        rw [List.mem_iff_getElem]
        refine ⟨p.length - (i + 1), by rw [List.length_drop]; omega, ?_⟩
        rw [List.getElem_drop, ← hat (by omega)]
        congr 1; omega
      · exact h
      · exfalso
        cases f with
        | false => have := h4 rfl; omega
        | true =>
          obtain ⟨_, hlt, hs⟩ := h5 rfl
          refine hpost _ ?_ hs
          have : v.bytes[i] = post[i - pre.length]'(by omega) := by
            simp only [e]
            rw [List.getElem_append_right (by omega)]
          rw [this]
          exact List.getElem_mem _
    have hf : f = true := by
      cases f with
      | true => rfl
      | false => have := h4 rfl; omega
    subst hf
    refine ⟨pv, sv, e1, e2, ?_, ?_⟩
    · rw [b1, e, hi]
      simp only [if_true]
      rw [← hlp, List.take_left]
    · rw [b2, e, hi]
      simp only [if_true]
      rw [← hlp, List.drop_left]
  · intro hno
    by_cases h0 : v.len = 0
    · unfold View.remove_file_suffix View.file_suffix
      refine ⟨View.null, View.null, by rw [if_pos h0]; rfl, by rw [if_pos h0]; rfl, rfl, ?_⟩
      simp [View.null, View.bytes, h0]
    · obtain ⟨i, f, h3, h2, h4, h5, pv, sv, e1, e2, b1, b2⟩ := key h0
      have hf : f = false := by
        cases f with
        | false => rfl
        | true =>
          obtain ⟨_, hlt, hs⟩ := h5 rfl
          exact absurd hs (hno _ (List.getElem_mem _))
      have := h4 hf
      subst hf this
      exact ⟨pv, sv, e1, e2, by rw [b1]; rfl, by rw [b2]; rfl⟩

/-- **C41 is false of the code** for `"/foo"`: the separator at index 0 is never looked at, so the
"suffix" is `"/foo"` and the directory part is empty. And `file_extension` of a name without a dot is
the whole name, not empty. -/
theorem C41_false :
    (View.file_suffix (View.of (lit "/foo"))).map View.bytes = .ok (lit "/foo") ∧
    (View.remove_file_suffix (View.of (lit "/foo"))).map View.bytes = .ok [] ∧
    (View.file_extension (View.of (lit "Makefile"))).map View.bytes = .ok (lit "Makefile") ∧
    (View.file_extension (View.of (lit ".bashrc"))).map View.bytes = .ok (lit ".bashrc") := by
  decide +kernel

/-- What `file_extension` does: when the last dot or separator is not the first byte, the result is what
follows it. -/
theorem C41_extension_cut {v : View} (hv : v.Valid) {pre post : List Byte}
    (hs : SplitLast (fun b => b = ch '.' ∨ Separator b) v.bytes pre post) (hlen : 1 < pre.length) :
    ∃ e, View.file_extension v = .ok e ∧ e.bytes = post := by
  have lv := View.bytes_length hv
  have hm := hv.2
  have hl := hv.1
  obtain ⟨e, hpost, p, b, hp, hb⟩ := hs
  have hlp : pre.length = p.length + 1 := by rw [hp]; simp
  have hvl : v.len = pre.length + post.length := by rw [← lv, e]; simp
  have h0 : v.len ≠ 0 := by omega
  obtain ⟨i, f, h1, h2, h3, h4, h5⟩ := cut_spec hv h0 (fun b => b = ch '.' || View.isSep b)
  have hat : ∀ h : p.length < v.bytes.length, v.bytes[p.length] = b := by
    intro h
    simp [e, hp]
  have hi : i = p.length := by
    rcases Nat.lt_trichotomy i p.length with h | h | h
    · exfalso
      have : (decide (b = ch '.') || View.isSep b) = false := by
        refine h3 b ?_
        rw [List.mem_iff_getElem]
        refine ⟨p.length - (i + 1), by rw [List.length_drop]; omega, ?_⟩
        rw [List.getElem_drop, ← hat (by omega)]
        congr 1; omega
      simp only [Bool.or_eq_false_iff, decide_eq_false_iff_not, View.isSep] at this
      unfold Separator at hb
      grind
    · exact h
    · exfalso
      cases f with
      | false => have := h4 rfl; omega
      | true =>
        obtain ⟨_, hlt, hq⟩ := h5 rfl
        have he : v.bytes[i] = post[i - pre.length]'(by omega) := by
          simp only [e]
          rw [List.getElem_append_right (by omega)]
        rw [he] at hq
        have hmem : post[i - pre.length]'(by omega) ∈ post := List.getElem_mem _
        simp only [Bool.or_eq_true, decide_eq_true_eq, View.isSep] at hq
        refine hpost _ hmem ?_
        unfold Separator
        grind
  have hf : f = true := by
    cases f with
    | true => rfl
    | false => have := h4 rfl; omega
  subst hf
  unfold View.file_extension
  rw [if_neg h0]
  simp only [h1, bind, Except.bind]
  refine ⟨_, rfl, ?_⟩
  simp only [if_true]
  rw [wsub_eq (b := i) (by omega) (by omega), wsub_eq (by omega) (by omega), Nat.add_assoc,
    View.sub_bytes v _ _ (by omega), List.take_of_length_le (by rw [List.length_drop]; omega),
    e, hi, ← hlp, List.drop_left]

/-- **C41** for `file_extension`: when the last dot is not the first byte and no separator follows it,
the result is what follows the last dot. Missing: names without such a dot (`C41_false`). -/
theorem C41_extension_partial {v : View} (hv : v.Valid) {pre post : List Byte}
    (hs : SplitLast (fun b => b = ch '.') v.bytes pre post) (hlen : 1 < pre.length)
    (hsep : ∀ b ∈ post, ¬ Separator b) :
    ∃ e, View.file_extension v = .ok e ∧ e.bytes = post := by
  obtain ⟨e, hpost, p, b, hp, hb⟩ := hs
  refine C41_extension_cut hv ⟨e, fun c hc h => ?_, p, b, hp, .inl hb⟩ hlen
  rcases h with h | h
  · exact hpost c hc h
  · exact hsep c hc h

/-- The inputs left over by `C41_suffix_partial` and `C41_extension_cut`: a string with no separator after its
first byte is its own suffix, and one with neither separator nor dot after its first byte is its own extension,
whatever the first byte is. -/
theorem C41_first_byte {v : View} (hv : v.Valid) :
    ((∀ b ∈ v.bytes.drop 1, ¬ Separator b) →
      ∃ p f, View.remove_file_suffix v = .ok p ∧ View.file_suffix v = .ok f ∧ p.bytes = [] ∧ f.bytes = v.bytes) ∧
    ((∀ b ∈ v.bytes.drop 1, ¬ (b = ch '.' ∨ Separator b)) →
      ∃ e, View.file_extension v = .ok e ∧ e.bytes = v.bytes) := by
  have lv := View.bytes_length hv
  have hm := hv.2
  have hl := hv.1
  have key : ∀ q : Byte → Bool, v.len ≠ 0 → (∀ b ∈ v.bytes.drop 1, q b = false) →
      View.scanBack v q (v.len - 1) = .ok (0, false) := by
    intro q h0 hq
    obtain ⟨i, f, h1, _, _, h4, h5⟩ := cut_spec hv h0 q
    cases f with
    | false => rw [h1, h4 rfl]
    | true =>
      obtain ⟨hi, hlt, hb⟩ := h5 rfl
      have : q v.bytes[i] = false := hq _ (List.mem_iff_getElem.mpr
        ⟨i - 1, by rw [List.length_drop]; omega, by rw [List.getElem_drop]; congr 1; omega⟩)
      rw [this] at hb; cases hb
  have hall : (⟨v.mem, v.off + 0 + 0, wsub (wsub v.len 0) 0⟩ : View) = v := by
    have h : wsub v.len 0 = v.len := by rw [wsub_eq (by omega) (by omega)]; omega
    rw [h, h]; rfl
  have hnull : v.len = 0 → View.null.bytes = v.bytes := fun h0 => by simp [View.null, View.bytes, h0]
  constructor
  · intro h
    unfold View.remove_file_suffix View.file_suffix
    by_cases h0 : v.len = 0
    · rw [if_pos h0, if_pos h0]
      exact ⟨_, _, rfl, rfl, rfl, hnull h0⟩
    · rw [if_neg h0, if_neg h0, key _ h0 (fun b hb => by
        have := h b hb
        simp only [View.isSep, Bool.or_eq_false_iff, decide_eq_false_iff_not]
        unfold Separator at this
        grind)]
      refine ⟨_, _, rfl, rfl, ?_, ?_⟩
      · simp [View.bytes]
      · exact congrArg View.bytes hall
  · intro h
    unfold View.file_extension
    by_cases h0 : v.len = 0
    · rw [if_pos h0]
      exact ⟨_, rfl, hnull h0⟩
    · rw [if_neg h0, key _ h0 (fun b hb => by
        have := h b hb
        simp only [View.isSep, Bool.or_eq_false_iff, decide_eq_false_iff_not]
        unfold Separator at this
        grind)]
      exact ⟨_, rfl, congrArg View.bytes hall⟩

/-- `"a.b/c"`: the last of dots and separators is the separator. -/
example : SplitLast (fun b => b = ch '.' ∨ Separator b) (lit "a.b/c") (lit "a.b/") (lit "c") ∧
    (View.file_extension (View.of (lit "a.b/c"))).map View.bytes = .ok (lit "c") ∧
    (∀ b ∈ (lit "/foo").drop 1, ¬ (b = ch '.' ∨ Separator b)) := by
  refine ⟨⟨by decide, ?_, lit "a.b", ch '/', by decide, ?_⟩, by decide +kernel, ?_⟩ <;> unfold Separator <;> decide

example : (View.file_suffix (View.of (lit "a/b\\c.txt"))).map View.bytes = .ok (lit "c.txt") ∧
    (View.remove_file_suffix (View.of (lit "a/b\\c.txt"))).map View.bytes = .ok (lit "a/b\\") ∧
    (View.file_extension (View.of (lit "a/b\\c.txt"))).map View.bytes = .ok (lit "txt") ∧
    (View.file_suffix (View.of (lit "a/b/"))).map View.bytes = .ok [] := by decide +kernel

example : SplitLast Separator (lit "a/b\\c.txt") (lit "a/b\\") (lit "c.txt") :=
  ⟨by decide, by unfold Separator; decide, lit "a/b", ch '\\', by decide, .inr rfl⟩

/-- **C42.** `sub(a, b)` is the bytes `a .. b-1` when `a ≤ b ≤ length`, and an assertion otherwise, for
all `u64` arguments. -/
theorem C42_sub {v : View} (hv : v.Valid) (a b : Nat) :
    (a ≤ b ∧ b ≤ v.len → ∃ r, View.sub v a b = .ok r ∧ r.Valid ∧ r.bytes = (v.bytes.take b).drop a) ∧
    (¬ (a ≤ b ∧ b ≤ v.len) → View.sub v a b = .error .die) := by
  unfold View.sub
  constructor
  · rintro ⟨h1, h2⟩
    rw [if_neg (by omega), if_neg (by omega)]
    refine ⟨_, rfl, View.sub_valid hv (by omega), ?_⟩
    rw [View.sub_bytes v _ _ (by omega), List.drop_take]
  · intro h
    by_cases h1 : a ≤ b
    · rw [if_neg (by omega), if_pos (by omega)]
    · rw [if_pos h1]

/-- **C42.** A string shortened by `set_length` holds the first bytes of what it held, and a string never becomes
longer than its memory: that stops the program. -/
theorem C42_set_length {s : Str} {l : List Byte} (h : s.Holds l) (n : Nat) :
    (n ≤ l.length → ∃ r, Str.set_length s n = .ok r ∧ r.Holds (l.take n)) ∧
    (s.buf.length < n → Str.set_length s n = .error .die) ∧
    ∀ r, Str.set_length s n = .ok r → r.len ≤ r.buf.length := by
  obtain ⟨h1, h2⟩ := h
  have h3 : l.length ≤ s.buf.length := by
    have := congrArg List.length h2
    rw [List.length_take, List.length_map] at this
    omega
  unfold Str.set_length
  refine ⟨fun hn => ?_, fun hn => by rw [if_neg (by omega)], fun r hr => ?_⟩
  · rw [if_pos (by omega)]
    refine ⟨_, rfl, ?_, ?_⟩
    · simp; omega
    · have := congrArg (List.take n) h2
      rw [List.take_take, ← List.map_take, Nat.min_eq_left (by omega)] at this
      exact this
  · split at hr
    · injection hr with hr; subst hr; assumption
    · cases hr

/-- **C42.** `append` is concatenation. -/
theorem C42_append {a b : View} (ha : a.Valid) (hb : b.Valid) :
    ∃ r, Str.append a b = .ok r ∧ r.Holds (a.bytes ++ b.bytes) := by
  have la := View.bytes_length ha
  have lb := View.bytes_length hb
  have := ha.1; have := ha.2; have := hb.1; have := hb.2
  unfold Str.append
  rw [wadd_eq (by omega), bytesOf_spec ha, bytesOf_spec hb]
  simp only [bind, Except.bind, Str.set_length, Str.withCapacity, List.length_replicate, Nat.le_refl,
    if_true]
  rw [copyIn_spec (by simp; omega)]
  simp only
  rw [copyIn_spec (by simp; omega)]
  refine ⟨_, rfl, by simp [la, lb], ?_⟩
  simp only [List.take_zero, List.nil_append, List.map_append]
  rw [List.take_append_of_le_length (i := a.len) (by simp [la]),
    List.take_of_length_le (i := a.len) (by simp [la]), List.take_append_of_le_length (by simp [la, lb]),
    List.take_of_length_le (by simp [la, lb])]

/-- **C42.** `terminate` is the bytes followed by one zero byte. -/
theorem C42_terminate {v : View} (hv : v.Valid) :
    ∃ r, Str.terminate v = .ok r ∧ r.Holds (v.bytes ++ [0#8]) := by
  have lv := View.bytes_length hv
  have := hv.1; have := hv.2
  unfold Str.terminate
  rw [wadd_eq (by omega), bytesOf_spec hv]
  simp only [bind, Except.bind, Str.set_length, Str.withCapacity, List.length_replicate, Nat.le_refl,
    if_true]
  rw [copyIn_spec (by simp; omega)]
  simp only [Str.assign]
  rw [if_neg (by omega), if_pos (by simp; omega)]
  refine ⟨_, rfl, by simp [lv], ?_⟩
  simp only [List.take_zero, List.nil_append, List.map_append, Nat.zero_add]
  rw [List.set_append_right _ _ (by simp [lv])]
  simp only [List.length_map, lv, Nat.sub_self, List.drop_replicate]
  rw [show v.len + 1 - v.len = 1 by omega]
  rw [List.take_of_length_le (by simp [lv])]
  rfl

/-- **C42.** `write(i, text)` with `i + length < 2^64`: overwrites exactly `text.length()` bytes at `i`
and nothing else, or stops with an assertion if they do not fit. Missing: indices so large that the
sum in the assert wraps (`C42_write_false`). -/
theorem C42_write_partial {s : Str} (hs : s.len ≤ s.buf.length) {t : View} (ht : t.Valid) (i : Nat)
    (hi : i + t.len < 2 ^ 64) :
    (i + t.len ≤ s.len → ∃ s', Str.write s i t = .ok (s', i + t.len) ∧ s'.len = s.len ∧
      s'.buf = s.buf.take i ++ t.bytes.map some ++ s.buf.drop (i + t.len)) ∧
    (¬ i + t.len ≤ s.len → Str.write s i t = .error .die) := by
  have lt := View.bytes_length ht
  unfold Str.write
  rw [wadd_eq hi, bytesOf_spec ht]
  constructor
  · intro h
    rw [if_neg (by omega)]
    simp only [bind, Except.bind, pure, Except.pure]
    rw [copyIn_spec (by omega)]
    exact ⟨_, rfl, rfl, by rw [lt]⟩
  · intro h
    rw [if_pos h]; rfl

/-- **C42.** `write(i, c)` replaces exactly the byte at `i`, or stops with an assertion when `i` is not an index of
the string. The returned index is the next one. -/
theorem C42_write_char {s : Str} (hs : s.len ≤ s.buf.length) (i : Nat) (c : Byte) :
    (i < s.len → ∃ s', Str.writeChar s i c = .ok (s', i + 1) ∧ s'.len = s.len ∧
      s'.buf.length = s.buf.length ∧ s'.buf[i]? = some (some c) ∧ ∀ j, j ≠ i → s'.buf[j]? = s.buf[j]?) ∧
    (¬ i < s.len → Str.writeChar s i c = .error .die) := by
  unfold Str.writeChar
  constructor
  · intro h
    rw [if_neg (by omega), if_pos (by omega)]
    refine ⟨_, rfl, rfl, by simp, ?_, ?_⟩
    · simp [List.getElem?_set, show i < s.buf.length by omega]
    · intro j hj
      simp [List.getElem?_set, Ne.symm hj]
  · intro h
    rw [if_pos h]

example : Str.writeChar ⟨[some 1#8, some 2#8, none], 2⟩ 1 9#8 = .ok (⟨[some 1#8, some 9#8, none], 2⟩, 2) ∧
    Str.writeChar ⟨[some 1#8, some 2#8, none], 2⟩ 2 9#8 = .error .die := by decide +kernel

/-- **C42 is false of the code**: `write(2^64 - 1, "a")` passes the assert, because the sum wraps to
0, and then writes one byte before the buffer. `Slice::sub(2^64 - 1, 1)` likewise hands out a slice
that starts before its data instead of stopping. -/
theorem C42_write_false :
    Str.write ⟨[some 1#8, some 2#8], 2⟩ (2 ^ 64 - 1) (View.of (lit "a")) = .error .ub ∧
    SliceV.sub ⟨2, 0, 2⟩ (2 ^ 64 - 1) 1 = .ok ⟨2, 2 ^ 64 - 1, 1⟩ := by decide +kernel

/-- In general: where the sum wraps, `write` stops only if what is left of the sum is beyond the string; otherwise it copies to
an address outside of the buffer. -/
theorem C42_write_wraps {s : Str} (hb : s.buf.length < 2 ^ 63) {t : View} (ht : t.Valid) {i : Nat}
    (hi : i < 2 ^ 64) (hw : 2 ^ 64 ≤ i + t.len) :
    Str.write s i t = if i + t.len - 2 ^ 64 ≤ s.len then .error .ub else .error .die := by
  have lt := View.bytes_length ht
  have hlen : t.len < 2 ^ 63 := by obtain ⟨h1, h2⟩ := ht; omega
  have e1 : wadd i t.len = i + t.len - 2 ^ 64 := by unfold wadd; omega
  unfold Str.write
  rw [e1, bytesOf_spec ht]
  by_cases h : i + t.len - 2 ^ 64 ≤ s.len
  · rw [if_pos h, if_neg (by omega)]
    simp only [bind, Except.bind, pure, Except.pure]
    unfold Str.copyIn
    rw [if_neg (by omega), if_neg (by omega)]
  · rw [if_neg h, if_pos h]
    rfl

example : Str.write ⟨[some 1#8, some 2#8], 2⟩ (2 ^ 64 - 2) (View.of (lit "hello")) = .error .die ∧
    Str.write ⟨[some 1#8, some 2#8], 2⟩ (2 ^ 64 - 4) (View.of (lit "hello")) = .error .ub := by decide +kernel

/-- **C42.** `Slice::sub(start, length)` for arguments whose sum does not wrap. -/
theorem C42_slice_sub_partial (s : SliceV) (start length : Nat) (h : start + length < 2 ^ 64)
    (hv : s.off + s.len ≤ s.memLen) :
    (start + length ≤ s.len → ∃ r, SliceV.sub s start length = .ok r ∧ r.len = length ∧
      r.off = s.off + start ∧ r.off + r.len ≤ s.memLen) ∧
    (¬ start + length ≤ s.len → SliceV.sub s start length = .error .die) := by
  unfold SliceV.sub
  rw [wadd_eq h]
  constructor
  · intro hl
    rw [if_neg (by omega)]
    exact ⟨_, rfl, rfl, rfl, by simp only; omega⟩
  · intro hl
    rw [if_pos hl]

/-- **C42.** `String::clone` and `String_View::string` make an equal copy. -/
theorem C42_copies {s : Str} {l : List Byte} (h : s.Holds l) {v : View} (hv : v.Valid) :
    (∃ r, Str.clone s = .ok r ∧ r.Holds l) ∧ ∃ r, Str.ofView v = .ok r ∧ r.Holds v.bytes := by
  have lv := View.bytes_length hv
  obtain ⟨h1, h2⟩ := h
  have hle : s.len ≤ s.buf.length := by
    have := congrArg List.length h2
    simp only [List.length_take, List.length_map] at this
    omega
  constructor
  · unfold Str.clone
    rw [if_pos hle]
    refine ⟨_, rfl, h1, ?_⟩
    simp only
    rw [List.take_append_of_le_length (by simp; omega), List.take_take, Nat.min_self, h2]
  · unfold Str.ofView
    rw [bytesOf_spec hv]
    simp only [bind, Except.bind]
    rw [copyIn_spec (by simp; omega)]
    refine ⟨_, rfl, lv.symm, ?_⟩
    simp only [List.take_zero, List.nil_append]
    rw [List.take_append_of_le_length (by simp [lv]), List.take_of_length_le (by simp [lv])]

example : (Str.append (View.of (lit "ab")) (View.of (lit "c"))).map Str.buf =
      .ok ((lit "abc").map some) ∧
    (Str.terminate (View.of (lit "ab"))).map Str.buf = .ok ([97#8, 98#8, 0#8].map some) ∧
    (View.sub (View.of (lit "hello")) 1 3).map View.bytes = .ok (lit "el") ∧
    View.sub (View.of (lit "hello")) 3 2 = .error .die ∧
    (Str.write ⟨(lit "abcd").map some, 4⟩ 1 (View.of (lit "XY"))).map (·.1.buf) =
      .ok ((lit "aXYd").map some) := by decide +kernel

/-- The alphabets. -/
def lowers : List Byte := lit "abcdefghijklmnopqrstuvwxyz"
def uppers : List Byte := lit "ABCDEFGHIJKLMNOPQRSTUVWXYZ"

/-- **C100.** `to_uppercase` and `to_lowercase` exchange the n-th letters of the two alphabets and change no other
byte. -/
theorem C100_case (c : Byte) :
    (∀ n : Fin 26, to_uppercase (lowers[n]'(by decide +revert)) = uppers[n]'(by decide +revert) ∧
      to_lowercase (uppers[n]'(by decide +revert)) = lowers[n]'(by decide +revert)) ∧
    (c ∉ lowers → to_uppercase c = c) ∧ (c ∉ uppers → to_lowercase c = c) := by
  refine ⟨by decide +kernel, ?_, ?_⟩ <;> revert c <;> decide +kernel

/-- **C100.** Ignoring case by either function is the same: two bytes agree in upper case exactly if they agree in
lower case. Converting twice is converting once. -/
theorem C100_fold (c d : Byte) :
    (to_uppercase c = to_uppercase d ↔ to_lowercase c = to_lowercase d) ∧
    to_uppercase (to_uppercase c) = to_uppercase c ∧ to_lowercase (to_lowercase c) = to_lowercase c ∧
    to_uppercase (to_lowercase c) = to_uppercase c := by
  revert c d; decide +kernel

/-- **C100.** White space is blank, tab, line feed, vertical tab and carriage return; form feed is not. -/
theorem C100_whitespace (c : Byte) :
    is_whitespace c = true ↔ c.toNat ∈ [9, 10, 11, 13, 32] := by
  revert c; decide +kernel

end Rpp.Props
