import Verif.Proof.FloatText

/-!
# Properties of floating point numbers as text (`rpp/format.h`, `rpp/format1.h`)
-/

namespace Rpp.Props
open Rpp Rpp.Fmt Rpp.Ieee Rpp.FloatText Rpp.FloatText.Spec

/-- **C161.** White space, a sign, digits, a point with more digits, and an exponent are read as the number they stand for, rounded once; the view
that comes with it has the rest of the text. -/
theorem C161_number {v : View} (hv : v.Valid) {ws sg ds fr fs ex es eds rest : List Byte} {e : Int}
    (hb : v.bytes = ws ++ (sg ++ (ds ++ (fr ++ (ex ++ rest))))) (hws : ∀ b ∈ ws, b = 32#8 ∨ (9#8 ≤ b ∧ b ≤ 13#8))
    (hsg : sg = [] ∨ sg = lit "-" ∨ sg = lit "+") (hds : Digits ds) (hne : ds ≠ [])
    (hfr : (fr = [] ∧ fs = []) ∨ (fr = ch '.' :: fs ∧ Digits fs))
    (hex : (ex = [] ∧ e = 0) ∨ (∃ c, (c = ch 'e' ∨ c = ch 'E') ∧ ex = c :: es ++ eds ∧ (es = [] ∨ es = lit "-" ∨ es = lit "+") ∧
      Digits eds ∧ eds ≠ [] ∧ e = if es = lit "-" then - (whole eds : Int) else whole eds))
    (hr : ∀ b, rest.head? = some b → ¬ (48#8 ≤ b ∧ b ≤ 57#8) ∧ (ex = [] → b ≠ ch 'e' ∧ b ≠ ch 'E' ∧
      (fr = [] → b ≠ ch '.' ∧ b ≠ ch 'x' ∧ b ≠ ch 'X'))) :
    ∃ r, parse_f32 v = .ok (some (rnd f32 ((if sg = lit "-" then -1 else 1) * (number ds fs * 10 ^ e)), r)) ∧ r.Valid ∧ r.bytes = rest :=
  number_read hv hb (fun b h => (isspace_iff b).mpr (hws b h)) hsg hds hne hfr hex hr

/-- **C161.** What is read is a closest one of all numbers of type `f32`, if it is no denormal one and not too large. -/
theorem C161_nearest {q : Rat} (h : q = 0 ∨ (2 : Rat) ^ (-126 : Int) ≤ |q|) (h2 : |q| ≤ 2 ^ 127) :
    ∃ y, rnd f32 q = .fin y ∧ ∀ z, IsF32 z → |q - y| ≤ |q - z| := by
  obtain ⟨y, h3, h4⟩ := rnd_best h h2
  exact ⟨y, h3, fun z hz => h4 z (isFloat_of hz)⟩

/-- **C161.** A finite number that is printed with `%f` is read back within a millionth, and the rest of the text is what followed it. -/
theorem C161_close {x : Rat} (hx : IsF32 x) {v : View} (hv : v.Valid) {rest : List Byte} (hb : v.bytes = print (.fin x) ++ rest)
    (hr : ∀ b, rest.head? = some b → ¬ (48#8 ≤ b ∧ b ≤ 57#8) ∧ b ≠ ch 'e' ∧ b ≠ ch 'E') :
    ∃ y r, parse_f32 v = .ok (some (.fin y, r)) ∧ r.Valid ∧ r.bytes = rest ∧ |y - x| ≤ 1 / 10 ^ 6 := by
  obtain ⟨y, r, h1, h2, h3, h4, _⟩ := print_read hx hv hb hr
  exact ⟨y, r, h1, h2, h3, h4⟩

/-- **C161.** What is printed are the multiples of a millionth next to the number, and these are what is read and rounded. -/
theorem C161_shown {x : Rat} (hx : IsF32 x) {v : View} (hv : v.Valid) {rest : List Byte} (hb : v.bytes = print (.fin x) ++ rest)
    (hr : ∀ b, rest.head? = some b → ¬ (48#8 ≤ b ∧ b ≤ 57#8) ∧ b ≠ ch 'e' ∧ b ≠ ch 'E') :
    ∃ n : Int, Millionths x n ∧ ∃ r, parse_f32 v = .ok (some (rnd f32 (n / 10 ^ 6), r)) ∧ r.bytes = rest := by
  obtain ⟨r, h1, _, h3⟩ := print_read_shown hx hv hb hr
  exact ⟨Angle.nearest (x * 10 ^ 6), millionths_nearest x, r, h1, h3⟩

/-- **C161**, for numbers of at least 16: what is read back is the number printed. Without the bound this is false, see `C161_false`. -/
theorem C161_exact_partial {x : Rat} (hx : IsF32 x) (h : 16 ≤ |x|) {v : View} (hv : v.Valid) {rest : List Byte}
    (hb : v.bytes = print (.fin x) ++ rest) (hr : ∀ b, rest.head? = some b → ¬ (48#8 ≤ b ∧ b ≤ 57#8) ∧ b ≠ ch 'e' ∧ b ≠ ch 'E') :
    ∃ r, parse_f32 v = .ok (some (.fin x, r)) ∧ r.Valid ∧ r.bytes = rest := by
  obtain ⟨y, r, h1, h2, h3, _, h5, _⟩ := print_read hx hv hb hr
  rw [h5 h] at h1
  exact ⟨r, h1, h2, h3⟩

/-- **C161**, for multiples of 1/64: what is read back is the number printed. -/
theorem C161_dyadic_partial {x : Rat} (hx : IsF32 x) (h : ∃ j : Int, x = j / 64) {v : View} (hv : v.Valid) {rest : List Byte}
    (hb : v.bytes = print (.fin x) ++ rest) (hr : ∀ b, rest.head? = some b → ¬ (48#8 ≤ b ∧ b ≤ 57#8) ∧ b ≠ ch 'e' ∧ b ≠ ch 'E') :
    ∃ r, parse_f32 v = .ok (some (.fin x, r)) ∧ r.Valid ∧ r.bytes = rest := by
  obtain ⟨y, r, h1, h2, h3, _, _, h5, _⟩ := print_read hx hv hb hr
  obtain ⟨j, hj⟩ := h
  rw [h5 ⟨j, by rw [hj]; ring⟩] at h1
  exact ⟨r, h1, h2, h3⟩

/-- **C161.** Every number up to half a millionth is read back as zero. -/
theorem C161_lost {x : Rat} (hx : IsF32 x) (h : |x| ≤ 1 / 2 / 10 ^ 6) {v : View} (hv : v.Valid) {rest : List Byte}
    (hb : v.bytes = print (.fin x) ++ rest) (hr : ∀ b, rest.head? = some b → ¬ (48#8 ≤ b ∧ b ≤ 57#8) ∧ b ≠ ch 'e' ∧ b ≠ ch 'E') :
    ∃ r, parse_f32 v = .ok (some (.fin 0, r)) ∧ r.bytes = rest := by
  obtain ⟨y, r, h1, _, h3, _, _, _, h5⟩ := print_read hx hv hb hr
  rw [h5 h] at h1
  exact ⟨r, h1, h3⟩

/-- **C161.** Infinities and what is no number are read back as such. -/
theorem C161_special {x : F} (hx : x = .inf true ∨ x = .inf false ∨ x = .nan) {v : View} (hv : v.Valid) {rest : List Byte}
    (hb : v.bytes = print x ++ rest) (hr : ∀ b, rest.head? = some b → b ≠ ch 'i' ∧ b ≠ ch 'I' ∧ b ≠ ch '(') :
    ∃ r, parse_f32 v = .ok (some (x, r)) ∧ r.Valid ∧ r.bytes = rest :=
  special_read hx hv hb hr

/-- **C161.** On any text `parse_f32` does not fail: it gives nothing, or takes at least one byte and gives what follows. -/
theorem C161_any {v : View} (hv : v.Valid) :
    parse_f32 v = .ok none ∨ ∃ x r a, parse_f32 v = .ok (some (x, r)) ∧ r.Valid ∧ a ≠ [] ∧ v.bytes = a ++ r.bytes :=
  parse_f32_any hv

/-- **C161.** It gives nothing if, after white space, the text does not begin with a digit, a sign, a point, or a letter of `inf` or `nan`. -/
theorem C161_none {v : View} (hv : v.Valid) {ws rest : List Byte} (hb : v.bytes = ws ++ rest) (hws : ∀ b ∈ ws, b = 32#8 ∨ (9#8 ≤ b ∧ b ≤ 13#8))
    (hr : ∀ b, rest.head? = some b → ¬ (b = 32#8 ∨ (9#8 ≤ b ∧ b ≤ 13#8)) ∧ ¬ (48#8 ≤ b ∧ b ≤ 57#8) ∧ b ∉ lit "+-.iInN") :
    parse_f32 v = .ok none := by
  refine parse_f32_none hv hb (fun b h => (isspace_iff b).mpr (hws b h)) (fun b h => ?_)
  obtain ⟨h1, h2, h3⟩ := hr b h
  rw [← isspace_iff] at h1
  exact ⟨by simpa using h1, isdigit_false h2, h3⟩

/-- **C161 fails.** Not every number is read back. The bound 16 of `C161_exact_partial` is nearly the best one: this number is above 15.99998, it is
printed as 15.999990, and another one is read. -/
theorem C161_false : ¬ ∀ x, IsF32 x → ∀ v : View, v.Valid → v.bytes = print (.fin x) → ∃ r, parse_f32 v = .ok (some (.fin x, r)) := by
  intro h
  have hx : IsF32 (16777205 / 1048576) := ⟨⟨16777205, -20, by decide, by decide, by norm_num⟩, by norm_num⟩
  have hp : print (.fin (16777205 / 1048576)) = lit "15.999990" := by decide +kernel
  obtain ⟨r, hr⟩ := h _ hx (View.of (lit "15.999990")) (View.of_valid (by decide)) (by rw [hp]; exact View.of_bytes _)
  have e : (parse_f32 (View.of (lit "15.999990"))).map (fun o => o.map (fun p => decide (p.1 = .fin (16777205 / 1048576)))) = .ok (some false) := by
    decide +kernel
  rw [hr] at e
  simp [Except.map] at e

/-! Runs that meet the hypotheses. -/

example : (parse_f32 (View.of (lit " -12.5e1,"))).map (fun o => o.map (fun p => (p.1, p.2.bytes))) = .ok (some (.fin (-125), lit ",")) := by decide +kernel

example : (parse_f32 (View.of (lit "  abc"))).map (fun o => o.map (·.1)) = .ok none := by decide +kernel

example : print (.fin (-(1 / 8))) = lit "-0.125000" := by decide +kernel

example : (parse_f32 (View.of (print (.fin (-(1 / 8))) ++ lit "]"))).map (fun o => o.map (fun p => (p.1, p.2.bytes))) =
    .ok (some (.fin (-(1 / 8)), lit "]")) := by decide +kernel

example : (parse_f32 (View.of (print (.inf true)))).map (fun o => o.map (·.1)) = .ok (some (.inf true)) := by decide +kernel

example : IsF32 (33 / 2) ∧ (16 : Rat) ≤ |33 / 2| := ⟨⟨⟨33, -1, by decide, by decide, by norm_num⟩, by norm_num⟩, by norm_num⟩

end Rpp.Props
