import Verif.Proof.Parse

/-!
# Properties of formatting and parsing (`rpp/format.h`, `rpp/format1.h`, `rpp/reflect.h`)
-/

namespace Rpp.Props
open Rpp Rpp.Spec Rpp.Fmt

/-- **C43.** For every formattable value there is a text such that the measuring pass gives its length
(as a `u64`) and the writing pass, called at any index with enough room left, stores exactly that text
there, changes nothing else and advances by that length. -/
theorem C43_measure_write (v : Val) (hv : Every ValidPart v) :
    ∃ t : List Byte, Fmt.measure v = t.length % 2 ^ 64 ∧
      ∀ (s : Str) (i : Nat), i + t.length ≤ s.len → s.len ≤ s.buf.length → s.len < 2 ^ 63 →
        writeV s i v = .ok (⟨s.buf.take i ++ t.map some ++ s.buf.drop (i + t.length), s.len⟩,
          i + t.length) :=
  ⟨text v, measure_eq v hv, fun s i h1 h2 h3 => writeV_put v hv s i ⟨h1, h2, h3⟩⟩

/-- **C43.** For `format` as a whole: whenever the placeholders match the arguments, the length it
measures is the number of bytes it writes, the buffer is full and no byte of it is left unwritten. -/
theorem C43_format_fills {fmt : View} (h : fmt.Valid) {args : List Val}
    (hv : ∀ v ∈ args, Every ValidPart v) :
    ∃ ts : List (List Byte), args.map Fmt.measure = ts.map (fun t => t.length % 2 ^ 64) ∧
      ∀ t, subst fmt.bytes ts = some t → t.length < 2 ^ 63 →
        format_length fmt args = .ok t.length ∧
        ∃ s, format fmt args = .ok s ∧ s.len = t.length ∧ s.buf = t.map some := by
  refine ⟨args.map text, ?_, fun t ht hl => ⟨format_length_eq h (EveryOf_iff.mpr hv) ht hl, _,
    format_ok h (EveryOf_iff.mpr hv) ht hl, rfl, rfl⟩⟩
  rw [List.map_map]
  exact List.map_congr_left (fun v hm => measure_eq v (hv v hm))

/-- **C43/C44.** The text of a value is its rendering, if the `length()` of each map inside it is the
number of elements it iterates over. -/
theorem C43_render (v : Val) (hv : Every ValidPart v) (hc : Every CountedPart v) :
    Fmt.measure v = (render v).length % 2 ^ 64 ∧
      ∀ (s : Str) (i : Nat), i + (render v).length ≤ s.len → s.len ≤ s.buf.length → s.len < 2 ^ 63 →
        writeV s i v = .ok (⟨s.buf.take i ++ (render v).map some ++ s.buf.drop (i + (render v).length),
          s.len⟩, i + (render v).length) := by
  rw [← text_eq v hv hc]
  exact ⟨measure_eq v hv, fun s i h1 h2 h3 => writeV_put v hv s i ⟨h1, h2, h3⟩⟩

/-- A vector of pairs of a number and an optional text, inside a record. -/
def sampleVal : Val :=
  .record (lit "R") [.field (lit "xs") (.seq .vec [.pair (.int (-12)) (.own .opt none),
    .pair (.int 7) (.own .opt (some (.str (View.of (lit "hi")))))]), .field (lit "b") (.bool true)]

example : render sampleVal = lit "R{xs : Vec[Pair{-12, Opt{None}}, Pair{7, Opt{hi}}], b : true}" := by
  decide +kernel

example : Every ValidPart sampleVal ∧ Every CountedPart sampleVal := by
  simp only [sampleVal, Every, EveryOf, ValidPart, CountedPart, and_true, true_and, View.Valid]
  decide +kernel

example : Fmt.measure sampleVal = 61 := by decide +kernel

/-- The condition on maps in `C43_render` is needed: a map whose `length()` is 2 but which has one element
(see `C23_length_false`) is printed with a trailing comma. -/
theorem C43_render_map_length_false :
    Every ValidPart (.map 2 [.item (.int 1) (.int 2)]) ∧
    format (View.of (lit "%")) [.map 2 [.item (.int 1) (.int 2)]] =
      .ok ⟨(lit "Map[{1 : 2}, ]").map some, 14⟩ ∧
    render (.map 2 [.item (.int 1) (.int 2)]) = lit "Map[{1 : 2}]" := by
  refine ⟨?_, by decide +kernel, by decide +kernel⟩
  simp only [Every, EveryOf, ValidPart, and_true, true_and]
  decide

/-- **C44.** For all format strings and arguments: if the number of placeholders is the number of
arguments then the result is the format string with the renderings in place of the placeholders and one
percent sign in place of two. -/
theorem C44_format {fmt : View} (h : fmt.Valid) {args : List Val}
    (hv : ∀ v ∈ args, Every ValidPart v) (hc : ∀ v ∈ args, Every CountedPart v) {t : List Byte}
    (ht : subst fmt.bytes (args.map render) = some t) (hl : t.length < 2 ^ 63) :
    ∃ s, format fmt args = .ok s ∧ s.Holds t := by
  have e : args.map text = args.map render :=
    List.map_congr_left (fun v hm => text_eq v (hv v hm) (hc v hm))
  rw [← e] at ht
  refine ⟨_, format_ok h (EveryOf_iff.mpr hv) ht hl, rfl, ?_⟩
  simp only
  rw [List.take_of_length_le (by simp)]

/-- **C44.** If the numbers differ, `format` stops with an assertion. -/
theorem C44_format_mismatch {fmt : View} (h : fmt.Valid) {args : List Val}
    (ht : subst fmt.bytes (args.map render) = none) : format fmt args = .error .die := by
  refine format_die h ?_
  have h1 := subst_isSome fmt.bytes (args.map render)
  have h2 := subst_isSome fmt.bytes (args.map text)
  rw [ht] at h1
  rw [List.length_map] at h1 h2
  rw [← h1] at h2
  simpa using h2

example : subst (lit "a% %% b%%%") ([Val.int 5, .bool true].map render) = some (lit "a5 % b%true") := by
  decide +kernel

example : subst (lit "a% b%") ([Val.int 5].map render) = none := by decide +kernel

example : format (View.of (lit "a% %% b%%%")) [Val.int 5, .bool true] =
    .ok ⟨(lit "a5 % b%true").map some, 11⟩ := by decide +kernel

/-- **C45.** Joining any list of strings. -/
theorem C45_concat {sep : View} (hs : sep.Valid) {l : List View} (hv : ∀ v ∈ l, v.Valid)
    (hl : (join sep.bytes (l.map View.bytes)).length < 2 ^ 63) :
    ∃ s, concat sep l = .ok s ∧ s.Holds (join sep.bytes (l.map View.bytes)) := by
  refine ⟨_, concat_ok hs hv hl, rfl, ?_⟩
  simp only
  rw [List.take_of_length_le (by simp)]

example : concat (View.of (lit ", ")) [View.of (lit "ab"), View.of [], View.of (lit "c")] =
    .ok ⟨(lit "ab, , c").map some, 7⟩ := by decide +kernel

/-! ### Parsing -/

/-- **C46.** Formatting a number and parsing it again: `parse_i64` gives the number and what came after
it, for every `i64` and every rest that does not begin with a digit. -/
theorem C46_roundtrip {n : Int} (h1 : - 2 ^ 63 ≤ n) (h2 : n < 2 ^ 63) {rest : List Byte}
    (hr : ∀ b, rest.head? = some b → ¬ (48#8 ≤ b ∧ b ≤ 57#8)) {v : View} (hv : v.Valid)
    (e : v.bytes = render (.int n) ++ rest) :
    ∃ r, parse_i64 v = .ok (some (n, r)) ∧ r.Valid ∧ r.bytes = rest := by
  have lv := View.bytes_length hv
  rw [parse_i64_eq hv]
  have hb : n.natAbs < 10 ^ 20 := by omega
  have e' : v.bytes ++ [0#8] = [] ++ ((if n < 0 then [ch '-'] else []) ++
      (digits 20 n.natAbs ++ (rest ++ [0#8]))) := by
    have : render (.int n) = intText n := by unfold render; rw [intText_eq h1 (by omega)]
    rw [e, this]
    unfold intText
    split <;> simp
  have hs := strtoll_eq (ws := []) (sg := if n < 0 then [ch '-'] else []) (ds := digits 20 n.natAbs)
    (r := rest ++ [0#8]) (by simp) (by split <;> simp) (digits_isdigit _ _)
    (digits_ne_nil _ _ (by omega)) (by
      intro b hb
      cases rest with
      | nil => simp at hb; subst hb; decide
      | cons c r =>
        have := hr b (by simpa using hb)
        simp only [isdigit, Bool.and_eq_false_iff, decide_eq_false_iff_not]
        exact Classical.not_and_iff_not_or_not.mp this)
  rw [← e', digits_value 20 _ hb (by omega)] at hs
  have hval : max (-2 ^ 63) (min (2 ^ 63 - 1) (if (if n < 0 then [ch '-'] else []) = [ch '-'] then
      -((n.natAbs : Nat) : Int) else ((n.natAbs : Nat) : Int))) = n := by
    by_cases hn : n < 0
    · simp only [hn, if_true]; omega
    · simp only [hn, if_false, List.nil_eq, reduceCtorEq]; omega
  rw [hval] at hs
  have hd := List.length_pos_iff.mpr (digits_ne_nil 20 n.natAbs (by omega))
  rw [hs]
  simp only [List.length_nil, Nat.zero_add]
  generalize hk : (if n < 0 then [ch '-'] else []).length + (digits 20 n.natAbs).length = k
  have hbytes : v.bytes = ((if n < 0 then [ch '-'] else []) ++ digits 20 n.natAbs) ++ rest := by
    have := congrArg List.dropLast e'
    simpa [← List.append_assoc] using this
  have hkl : k + rest.length = v.len := by
    rw [← lv, hbytes, List.length_append, List.length_append]; omega
  rw [if_neg (by omega), sub_eq (by omega) (Nat.le_refl _)]
  refine ⟨_, rfl, View.sub_valid hv (by omega), ?_⟩
  rw [View.sub_bytes _ _ _ (by omega), hbytes, List.drop_left' (by rw [List.length_append]; omega),
    List.take_of_length_le (by omega)]

/-- **C46.** More generally: after any white space (in the sense of C's `isspace`), an optional sign and
at least one digit, the value is the number, brought into the range of `i64`, and the rest is what
follows the digits. -/
theorem C46_number {ws sg ds rest : List Byte} (h1 : ∀ b ∈ ws, b = 32#8 ∨ 9#8 ≤ b ∧ b ≤ 13#8)
    (h2 : sg = [] ∨ sg = lit "-" ∨ sg = lit "+") (h3 : ∀ b ∈ ds, 48#8 ≤ b ∧ b ≤ 57#8) (h4 : ds ≠ [])
    (h5 : ∀ b, rest.head? = some b → ¬ (48#8 ≤ b ∧ b ≤ 57#8)) {v : View} (hv : v.Valid)
    (e : v.bytes = ws ++ sg ++ ds ++ rest) :
    ∃ r, parse_i64 v = .ok (some (max (- 2 ^ 63) (min (2 ^ 63 - 1)
        ((if sg = lit "-" then -1 else 1) *
          ((ds.foldl (fun a d => 10 * a + (d.toNat - 48)) 0 : Nat) : Int))), r)) ∧
      r.Valid ∧ r.bytes = rest := by
  have lv := View.bytes_length hv
  rw [parse_i64_eq hv]
  have hsp : ∀ b : Byte, (b = 32#8 ∨ 9#8 ≤ b ∧ b ≤ 13#8) → isspace b = true := by decide +kernel
  have hs := strtoll_eq (ws := ws) (sg := sg) (ds := ds) (r := rest ++ [0#8])
    (fun b hb => hsp b (h1 b hb)) h2 (fun b hb => by simpa [isdigit] using h3 b hb) h4 (by
      intro b hb
      cases rest with
      | nil => simp at hb; subst hb; decide
      | cons c r =>
        have := h5 b (by simpa using hb)
        simp only [isdigit, Bool.and_eq_false_iff, decide_eq_false_iff_not]
        exact Classical.not_and_iff_not_or_not.mp this)
  have hd := List.length_pos_iff.mpr h4
  have hkl : ws.length + sg.length + ds.length + rest.length = v.len := by
    rw [← lv, e]; simp; omega
  have e' : ws ++ (sg ++ (ds ++ (rest ++ [0#8]))) = v.bytes ++ [0#8] := by rw [e]; simp
  rw [e'] at hs
  rw [hs]
  simp only
  rw [if_neg (by omega), sub_eq (by omega) (Nat.le_refl _)]
  refine ⟨⟨v.mem, v.off + (ws.length + sg.length + ds.length),
    v.len - (ws.length + sg.length + ds.length)⟩, ?_, View.sub_valid hv (by omega), ?_⟩
  · simp only [Except.map]
    congr 4
    have : ([ch '-'] : List Byte) = lit "-" := by decide
    rw [this]
    split <;> omega
  · rw [View.sub_bytes _ _ _ (by omega), e, List.drop_left' (by simp; omega),
      List.take_of_length_le (by omega)]

/-- **C46.** Input that does not begin with white space, an optional sign and a digit gives nothing. -/
theorem C46_nothing {v : View} (hv : v.Valid)
    (h : ∀ ws sg d rest, v.bytes = ws ++ sg ++ d :: rest → (∀ b ∈ ws, b = 32#8 ∨ 9#8 ≤ b ∧ b ≤ 13#8) →
      (sg = [] ∨ sg = lit "-" ∨ sg = lit "+") → ¬ (48#8 ≤ d ∧ d ≤ 57#8)) :
    parse_i64 v = .ok none := by
  rw [parse_i64_eq hv]
  have hsp : ∀ b : Byte, isspace b = true → (b = 32#8 ∨ 9#8 ≤ b ∧ b ≤ 13#8) := by decide +kernel
  rw [if_pos]
  unfold strtoll
  simp only
  generalize hws : (v.bytes ++ [0#8]).takeWhile isspace = ws
  have hall : ∀ b ∈ ws, isspace b = true := by
    intro b hb; rw [← hws] at hb; exact List.all_eq_true.mp (List.all_takeWhile) b hb
  obtain ⟨r, hr⟩ : ∃ r, v.bytes ++ [0#8] = ws ++ r :=
    ⟨_, by rw [← hws]; exact (List.takeWhile_append_dropWhile).symm⟩
  rw [hr, List.drop_left]
  -- the sign
  obtain ⟨sg, r', e1, e2, e3⟩ : ∃ sg r', r = sg ++ r' ∧ (sg = [] ∨ sg = lit "-" ∨ sg = lit "+") ∧
      (if r.head? = some (ch '-') ∨ r.head? = some (ch '+') then 1 else 0) = sg.length := by
    cases r with
    | nil => exact ⟨[], [], rfl, .inl rfl, by simp⟩
    | cons c r =>
      by_cases h1 : c = ch '-'
      · subst h1; exact ⟨lit "-", r, rfl, .inr (.inl rfl), by simp; rfl⟩
      · by_cases h2 : c = ch '+'
        · subst h2; exact ⟨lit "+", r, rfl, .inr (.inr rfl), by simp; rfl⟩
        · exact ⟨[], c :: r, rfl, .inl rfl, by simp [h1, h2]⟩
  rw [e3, e1, List.drop_left]
  cases r' with
  | nil => rfl
  | cons d r' =>
    have hd : isdigit d = false := by
      by_cases hd : isdigit d = true
      · exfalso
        have hd' : 48#8 ≤ d ∧ d ≤ 57#8 := by simpa [isdigit] using hd
        have hne : r' ≠ [] := by
          rintro rfl
          have := congrArg List.getLast? hr
          rw [e1] at this
          simp at this
          subst this
          revert hd; decide
        have := congrArg List.dropLast hr
        rw [e1, ← List.append_assoc, List.dropLast_concat, List.dropLast_append_of_ne_nil (by simp),
          List.dropLast_cons_of_ne_nil hne] at this
        exact h ws sg d r'.dropLast this (fun b hb => hsp b (hall b hb)) e2 hd'
      · simpa using hd
    rw [List.takeWhile_cons_of_neg (by simp [hd])]
    rfl

example : (parse_i64 (View.of (lit "-120, 7"))).map (Option.map (fun p => (p.1, p.2.bytes))) =
    .ok (some (-120, lit ", 7")) := by decide +kernel

example : parse_i64 (View.of (lit "  +x")) = .ok none := by decide +kernel

example : (parse_i64 (View.of (lit " 99999999999999999999 "))).map (Option.map (fun p => (p.1, p.2.bytes))) =
    .ok (some (2 ^ 63 - 1, lit " ")) := by decide +kernel

/-- **C47**, for input whose first token is at least two bytes long or not the last thing in it, and is
not followed by exactly one more byte: the first token and what comes after the white space byte that
ends it. Missing from the full property: the other inputs, for which it is false (`C47_false_single`,
`C47_false_trailing`). -/
theorem C47_token_partial {v : View} (hv : v.Valid) {w t r : List Byte} (e : v.bytes = w ++ t ++ r)
    (hw : ∀ b ∈ w, White b) (ht : ∀ b ∈ t, ¬ White b) (ht0 : t ≠ [])
    (hr : ∀ b, r.head? = some b → White b) (h1 : r = [] → 2 ≤ t.length) (h2 : r.length ≠ 1) :
    ∃ tok rest, parse_string v = .ok (some (tok, rest)) ∧ tok.bytes = t ∧ rest.bytes = r.tail := by
  have lv := View.bytes_length hv
  have hlen : w.length + t.length + r.length = v.len := by rw [← lv, e]; simp; omega
  have h := parse_string_eq hv (w := w) (t := t) (r := r) (by rw [e, List.append_assoc])
    (fun b hb => (white_iff b).mpr (hw b hb)) (fun b hb => not_white (ht b hb)) ht0
    (fun b hb => (white_iff b).mpr (hr b hb))
  rw [h]
  have tok : (View.mk v.mem (v.off + w.length) t.length).bytes = t := by
    rw [View.sub_bytes _ _ _ (by omega), e, List.append_assoc, List.drop_left, List.take_left]
  by_cases hr0 : r = []
  · subst hr0
    rw [if_pos rfl, if_pos (by have := h1 rfl; omega)]
    exact ⟨_, _, rfl, tok, rfl⟩
  · rw [if_neg hr0, if_neg h2]
    refine ⟨_, _, rfl, tok, ?_⟩
    have hr1 := List.length_pos_iff.mpr hr0
    rw [View.sub_bytes _ _ _ (by omega), e, ← List.drop_drop, List.drop_left' (by simp),
      List.drop_one, List.take_of_length_le (by simp)]

/-- **C104.** `skip_whitespace` drops the white space in front and nothing else. -/
theorem C104_skip_whitespace {v : View} (hv : v.Valid) {w t : List Byte} (e : v.bytes = w ++ t)
    (hw : ∀ b ∈ w, White b) (ht : ∀ b, t.head? = some b → ¬ White b) :
    ∃ r, skip_whitespace v = .ok r ∧ r.Valid ∧ r.bytes = t := by
  have hk : v.bytes.takeWhile is_whitespace = w := by
    rw [e, List.takeWhile_append_of_pos (fun b hb => (white_iff b).mpr (hw b hb))]
    cases t with
    | nil => simp
    | cons c r => rw [List.takeWhile_cons_of_neg (by rw [not_white (ht c rfl)]; simp)]; simp
  have lv := View.bytes_length hv
  have hlen : w.length + t.length = v.len := by rw [← lv, e]; simp
  unfold skip_whitespace
  rw [skipLoop_eq hv _ 0 (by omega) (by omega)]
  simp only [List.drop_zero, hk, Nat.zero_add, ok_bind]
  unfold View.sub
  rw [if_neg (by omega), if_neg (by omega)]
  refine ⟨_, rfl, View.sub_valid hv (by omega), ?_⟩
  rw [View.sub_bytes _ _ _ (by omega), e, List.drop_left, List.take_of_length_le (by omega)]

example : (skip_whitespace (View.of (lit " \t a b "))).map View.bytes = .ok (lit "a b ") := by
  decide +kernel

/-- **C47.** Input of white space only gives nothing. -/
theorem C47_blank {v : View} (hv : v.Valid) (hw : ∀ b ∈ v.bytes, White b) :
    parse_string v = .ok none :=
  parse_string_blank hv (fun b hb => (white_iff b).mpr (hw b hb))

/-- **C47 is false of the code:** a token of one byte at the end of the input is not found, whatever
the byte and however much white space comes before it. -/
theorem C47_false_single {v : View} (hv : v.Valid) {w : List Byte} {c : Byte} (e : v.bytes = w ++ [c])
    (hw : ∀ b ∈ w, White b) (hc : ¬ White c) : parse_string v = .ok none := by
  have h := parse_string_eq hv (w := w) (t := [c]) (r := []) (by rw [e]; simp)
    (fun b hb => (white_iff b).mpr (hw b hb)) (fun b hb => by simp at hb; subst hb; exact not_white hc)
    (by simp) (by simp)
  rw [h]
  simp

/-- **C47 is false of the code:** one white space byte at the end of the input becomes part of the
token. -/
theorem C47_false_trailing {v : View} (hv : v.Valid) {w t : List Byte} {c : Byte}
    (e : v.bytes = w ++ t ++ [c]) (hw : ∀ b ∈ w, White b) (ht : ∀ b ∈ t, ¬ White b) (ht0 : t ≠ [])
    (hc : White c) :
    ∃ tok rest, parse_string v = .ok (some (tok, rest)) ∧ tok.bytes = t ++ [c] ∧ rest.bytes = [] := by
  have lv := View.bytes_length hv
  have hlen : w.length + t.length + 1 = v.len := by rw [← lv, e]; simp; omega
  have h := parse_string_eq hv (w := w) (t := t) (r := [c]) (by rw [e, List.append_assoc])
    (fun b hb => (white_iff b).mpr (hw b hb)) (fun b hb => not_white (ht b hb)) ht0
    (fun b hb => by simp at hb; subst hb; exact (white_iff _).mpr hc)
  rw [h, if_neg (by simp), if_pos (by simp)]
  refine ⟨_, _, rfl, ?_, rfl⟩
  rw [View.sub_bytes _ _ _ (by omega), e, List.append_assoc, List.drop_left,
    List.take_of_length_le (by simp)]

example : (parse_string (View.of (lit " ab  c"))).map (Option.map (fun p => (p.1.bytes, p.2.bytes))) =
    .ok (some (lit "ab", lit " c")) := by decide +kernel
example : parse_string (View.of (lit "a")) = .ok none := by decide +kernel
example : (parse_string (View.of (lit "ab "))).map (Option.map (fun p => (p.1.bytes, p.2.bytes))) =
    .ok (some (lit "ab ", [])) := by decide +kernel

/-- **C48**, for names of at least two bytes: for every enumeration with distinct names and distinct
values, and every enumerator, parsing the name gives back the value. Missing from the full property:
names of one byte, for which it is false (`C48_false`). -/
theorem C48_enum_partial {cases : List (List Byte × Int)} (hn : (cases.map Prod.fst).Nodup)
    (hd : (cases.map Prod.snd).Nodup) (hl : ∀ c ∈ cases, c.1.length < 2 ^ 63)
    (hw : ∀ c ∈ cases, ∀ b ∈ c.1, ¬ White b ∧ b ≠ 0#8) {name : List Byte} {value : Int}
    (hm : (name, value) ∈ cases) (h2 : 2 ≤ name.length) :
    enum_name cases value = name ∧
    ∃ rest, parse_enum cases (View.of (enum_name cases value)) = .ok (some (value, rest)) ∧
      rest.bytes = [] := by
  have e1 : enum_name cases value = name := by
    unfold enum_name
    refine foldl_find (P := fun c => value = c.2) (f := Prod.fst) (c := (name, value)) cases _ hm rfl ?_
    rintro ⟨n', v'⟩ hm' (rfl : value = v')
    exact congrArg Prod.fst (inj_of_nodup hd hm' hm rfl)
  refine ⟨e1, View.null, ?_, rfl⟩
  rw [e1]
  have hlen : name.length < 2 ^ 63 := hl _ hm
  have hv := View.of_valid hlen
  have hfree : ∀ b ∈ name, ¬ White b ∧ b ≠ 0#8 := hw _ hm
  unfold parse_enum
  have h := parse_string_eq hv (w := []) (t := name) (r := []) (by rw [View.of_bytes]; simp)
    (by simp) (fun b hb => not_white (hfree b hb).1) (by rintro rfl; simp at h2) (by simp)
  rw [h, if_pos rfl, if_pos (by omega)]
  simp only [ok_bind]
  have hb : (View.mk (View.of name).mem ((View.of name).off + ([] : List Byte).length) name.length).bytes
      = name := by
    rw [View.sub_bytes _ _ _ (by simp [View.of]), View.of_bytes]; simp
  rw [enumLoop_eq (View.sub_valid hv (by simp [View.of])) (by rw [hb]; exact fun h0 => (hfree _ h0).2 rfl)
    cases none hl, hb]
  congr 1
  refine foldl_find (P := fun c => name = c.1) (f := fun c => some (c.2, View.null)) (c := (name, value))
    cases none hm rfl ?_
  rintro ⟨n', v'⟩ hm' (rfl : name = n')
  have := congrArg Prod.snd (inj_of_nodup hn hm' hm rfl)
  simp only at this
  rw [this]

/-- An enumeration. -/
def sampleEnum : List (List Byte × Int) := [(lit "red", 3), (lit "green", -1), (lit "blue", 0)]

example : (sampleEnum.map Prod.fst).Nodup ∧ (sampleEnum.map Prod.snd).Nodup ∧
    (∀ c ∈ sampleEnum, c.1.length < 2 ^ 63) ∧ (∀ c ∈ sampleEnum, ∀ b ∈ c.1, ¬ White b ∧ b ≠ 0#8) := by
  unfold White; decide +kernel

example : (parse_enum sampleEnum (View.of (lit " green blue"))).map
    (Option.map (fun p => (p.1, p.2.bytes))) = .ok (some (-1, lit "blue")) := by decide +kernel

/-- **C48 is false of the code:** an enumerator whose name is one byte is not parsed back. -/
theorem C48_false : enum_name [(lit "x", 0), (lit "y", 1)] 1 = lit "y" ∧
    parse_enum [(lit "x", 0), (lit "y", 1)] (View.of (lit "y")) = .ok none := by decide +kernel

/-- In general: with distinct names and values, parsing the name of an enumerator gives its value back exactly if the name has
more than one byte. -/
theorem C48_exact {cases : List (List Byte × Int)} (hn : (cases.map Prod.fst).Nodup)
    (hd : (cases.map Prod.snd).Nodup) (hl : ∀ c ∈ cases, c.1.length < 2 ^ 63)
    (hw : ∀ c ∈ cases, ∀ b ∈ c.1, ¬ White b ∧ b ≠ 0#8) {name : List Byte} {value : Int}
    (hm : (name, value) ∈ cases) (h0 : name ≠ []) :
    (∃ rest, parse_enum cases (View.of name) = .ok (some (value, rest))) ↔ name.length ≠ 1 := by
  constructor
  · rintro ⟨rest, h⟩ h1
    obtain ⟨c, rfl⟩ := List.length_eq_one_iff.1 h1
    have hs := C47_false_single (View.of_valid (hl _ hm)) (w := []) (c := c) (by rw [View.of_bytes]; rfl) (by simp)
      (hw _ hm c (.head _)).1
    unfold parse_enum at h
    rw [hs] at h
    cases h
  · intro h1
    obtain ⟨e, rest, h, _⟩ := C48_enum_partial hn hd hl hw hm (by
      have := List.length_pos_iff.2 h0
      omega)
    rw [e] at h
    exact ⟨rest, h⟩

example : (parse_enum [(lit "x", 0), (lit "yy", 1)] (View.of (lit "yy"))).map (Option.map (·.1)) = .ok (some 1) ∧
    (parse_enum [(lit "x", 0), (lit "yy", 1)] (View.of (lit "x"))).map (Option.map (·.1)) = .ok none := by decide +kernel

end Rpp.Props
