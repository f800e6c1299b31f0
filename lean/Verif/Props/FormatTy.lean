import Verif.Proof.FormatTy
import Verif.Props.Format

/-!
# Formatted values can be told apart

The types are those of `Spec/FormatTy`: integers, booleans, characters, enumerations, sequences, maps, `Opt`, `Box`, `Ref`, `Rc`, `Arc`, pairs,
tuples, records, variants of `Named` types and integer vectors, in each other.
-/

namespace Rpp.Props
open Rpp Rpp.Spec Rpp.Fmt

/-- **C168, partial** (types without strings, floating point numbers and pointers, see `C168_false`)**.** Two values of the same type that `format` makes the
same text of are the same value. -/
theorem C168_distinct_partial {t : FTy} (ht : t.OK) {v w : Val} (hv : HasTy t v) (hw : HasTy t w)
    (lv : (render v).length < 2 ^ 63) (lw : (render w).length < 2 ^ 63) {s s' : Str}
    (es : format (View.of (lit "%")) [v] = .ok s) (es' : format (View.of (lit "%")) [w] = .ok s')
    (h : s.buf.take s.len = s'.buf.take s'.len) : v = w := by
  have hval : (View.of (lit "%")).Valid := by
    unfold View.Valid View.of; simp; decide
  have one : ∀ x, HasTy t x → (render x).length < 2 ^ 63 → ∃ s, format (View.of (lit "%")) [x] = .ok s ∧ s.Holds (render x) := by
    intro x hx lx
    obtain ⟨h1, h2⟩ := valid t ht x hx
    refine C44_format hval (by simpa using h1) (by simpa using h2) ?_ lx
    have : (View.of (lit "%")).bytes = lit "%" := by decide +kernel
    rw [this]
    have : lit "%" = [37#8] := by decide +kernel
    rw [this]
    simp [subst, ch]
  obtain ⟨a, ea, ha⟩ := one v hv lv
  obtain ⟨b, eb, hb⟩ := one w hw lw
  rw [es] at ea; cases ea
  rw [es'] at eb; cases eb
  unfold Str.Holds at ha hb
  rw [ha.2, hb.2] at h
  have h : render v = render w := (List.map_inj_right (fun _ _ e => Option.some.inj e)).mp h
  exact (dec t ht v w hv hw [] [] Stop.nil Stop.nil (by simpa using h)).1

/-- The same for a value in the middle of a text, as long as a space, a comma or a closing bracket or nothing follows: the text says where the value ends, and what the
value is. -/
theorem C168_prefix_partial {t : FTy} (ht : t.OK) {v w : Val} (hv : HasTy t v) (hw : HasTy t w) {r r' : List Byte}
    (hr : ∀ b, r.head? = some b → b ∈ lit " ,]}") (hr' : ∀ b, r'.head? = some b → b ∈ lit " ,]}")
    (h : render v ++ r = render w ++ r') : v = w ∧ r = r' := by
  have hl : lit " ,]}" = [32#8, 44#8, 93#8, 125#8] := by decide +kernel
  rw [hl] at hr hr'
  exact dec t ht v w hv hw r r' (fun b hb => by simpa using hr b hb) (fun b hb => by simpa using hr' b hb) h

/-! ### Examples -/

/-- A record of a vector of pairs of a number and an optional enumerator, and a variant. -/
private def sampleTy : FTy :=
  .record (lit "R") [.field (lit "xs") (.seq .vec (.pair .int (.own .opt (.enum (lit "E") [(lit "None", 0), (lit "B", 7)])))),
    .field (lit "v") (.variant [.named (lit "A") .int, .named (lit "AB") (.own .box .char)])]

private def sampleOf (n : Int) (x : Val) : Val :=
  .record (lit "R") [.field (lit "xs") (.seq .vec [.pair (.int n) (.own .opt none),
    .pair (.int 7) (.own .opt (some (.enum (lit "E") [(lit "None", 0), (lit "B", 7)] 0)))]), .field (lit "v") (.variant x)]

/-- The hypotheses hold of this type and its values: the text of an empty `Opt` is not that of an enumerator called `None`. -/
example : sampleTy.OK ∧ HasTy sampleTy (sampleOf (-12) (.named (lit "A") (.int 5))) ∧
    HasTy sampleTy (sampleOf 3 (.named (lit "AB") (.own .box (some (.char (ch '}')))))) ∧
    render (sampleOf (-12) (.named (lit "A") (.int 5))) =
      lit "R{xs : Vec[Pair{-12, Opt{None}}, Pair{7, Opt{E::None}}], v : Variant{A{5}}}" ∧
    render (sampleOf 3 (.named (lit "AB") (.own .box (some (.char (ch '}')))))) =
      lit "R{xs : Vec[Pair{3, Opt{None}}, Pair{7, Opt{E::None}}], v : Variant{AB{Box{}}}}}" := by
  refine ⟨?_, ?_, ?_, by decide +kernel, by decide +kernel⟩
  · simp only [sampleTy, FTy.OK, OKAll, Word, FTy.alt, List.map_cons, List.map_nil]
    refine ⟨by decide +kernel, ⟨⟨by decide +kernel, ⟨⟨trivial, by decide +kernel, by decide +kernel, by decide +kernel, by decide +kernel⟩, by intro h; cases h⟩⟩,
      ⟨by decide +kernel, ⟨⟨by decide +kernel, trivial⟩, ⟨by decide +kernel, trivial⟩, trivial⟩, ?_, by decide +kernel⟩, trivial⟩⟩
    intro t ht
    simp only [List.mem_cons, List.not_mem_nil, or_false] at ht
    rcases ht with rfl | rfl <;> intro h <;> cases h
  · simp [sampleTy, sampleOf, HasTy, HasAll, HasOne, Whole64]
  · simp [sampleTy, sampleOf, HasTy, HasAll, HasOne, Whole64]

/-- **C168 is false of strings**, which are written as they are: a vector of one string and a vector of two look the same. And of enumerations with a
value that has no name: nothing is written for it. -/
theorem C168_false :
    (format (View.of (lit "%")) [.seq .vec [.str (View.of (lit "a, b"))]] = .ok ⟨(lit "Vec[a, b]").map some, 9⟩ ∧
      format (View.of (lit "%")) [.seq .vec [.str (View.of (lit "a")), .str (View.of (lit "b"))]] = .ok ⟨(lit "Vec[a, b]").map some, 9⟩) ∧
    (format (View.of (lit "%")) [.enum (lit "E") [(lit "A", 0)] 1] = .ok ⟨(lit "E::").map some, 3⟩ ∧
      format (View.of (lit "%")) [.enum (lit "E") [(lit "A", 0)] 2] = .ok ⟨(lit "E::").map some, 3⟩) := by
  decide +kernel

end Rpp.Props
