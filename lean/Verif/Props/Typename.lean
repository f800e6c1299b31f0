import Verif.Proof.Typename
import Mathlib.Tactic.ByContra

/-!
# C141: names of types

Full statement: `format_typename<T>()` exists for every reflected type, is its spelling in C++, and is different for different types.
-/

namespace Rpp.Props

open Rpp Rpp.Fmt Rpp.Typename Rpp.Spec.Typename

/-- `int`, `const int` and the like for the examples. -/
private def int (c : Bool := false) : Ty := .named c false (lit "i32")

/-- The name of a type is made by the specialisation of `Typename` that the compiler selects, from the name of the type it deduces. -/
theorem C141_selected (t : Ty) :
    match Meta.select pats (skel t) with
    | none => name t = none
    | some .const => name t = (name (unconst t)).map (lit "const " ++ ·)
    | some .vol => name t = (name (unvol t)).map (lit "volatile " ++ ·)
    | some .cv => name t = (name (unconst (unvol t))).map (lit "const volatile " ++ ·)
    | some .ptr => name t = (name (inner t)).map (· ++ lit "*")
    | some .arr => name t = (name (inner t)).map (· ++ lit "[" ++ decimal (dimension t) ++ lit "]") ∨ 2 ^ 64 ≤ dimension t
    | some .lref => name t = (name (inner t)).map (· ++ lit "&")
    | some .rref => name t = (name (inner t)).map (· ++ lit "&&")
    | some .any => skel t = .base false false 0
    | some _ => False := by
  cases t with
  | named c v n =>
    rw [skel, select_const]
    cases c <;> cases v <;> simp [name, qualified, unconst, unvol]
  | inst c v n a =>
    rw [skel, select_const]
    cases c <;> cases v <;> cases h : names a <;> simp [name, qualified, unconst, unvol, h]
  | func c v r a =>
    rw [skel, select_const]
    cases c <;> cases v <;> cases h : names a <;> cases h' : name r <;> simp [name, qualified, unconst, unvol, h, h']
  | ptr c v t =>
    rw [skel, select_ptr]
    cases c <;> cases v <;> cases h : name t <;> simp [name, qualified, unconst, unvol, inner, h]
  | arr t n =>
    rw [skel, select_arr]
    by_cases hq : ((skel t).isConst || (skel t).isVol) = true
    · rw [if_pos hq]
      simp only [name, if_pos hq]
    · rw [if_neg hq]
      simp only [name, if_neg hq, dimension, inner]
      by_cases hn : n < 2 ^ 64
      · refine .inl ?_
        rw [decimal_eq hn]
        cases name t <;> rfl
      · exact .inr (by omega)
  | lref t =>
    rw [skel, select_lref]
    cases h : name t <;> simp [name, inner, h]
  | rref t =>
    rw [skel, select_rref]
    cases h : name t <;> simp [name, inner, h]

/-- There is a name exactly for the types in which no array has `const` or `volatile` elements. -/
theorem C141_exists (t : Ty) : (name t).isSome = true ↔ NoQualArray t := by
  constructor
  · intro h
    by_contra hn
    rw [(name_eq t).2 hn] at h
    cases h
  · intro h
    rw [(name_eq t).1 h]
    rfl

/-- Two types have the same name exactly if they have the same words in front, the same signs behind, and the same things, taken apart
in the same way, in between. -/
theorem C141_same {t u : Ty} (ht : Proper t) (hu : Proper u) (hqt : NoQualArray t) (hqu : NoQualArray u) :
    name t = name u ↔ says t = says u := by
  constructor
  · intro h
    obtain ⟨s, hs⟩ := Option.isSome_iff_exists.mp ((C141_exists t).mpr hqt)
    exact name_inj ht hu hs (h ▸ hs)
  · intro h
    rw [(name_eq t).1 hqt, (name_eq u).1 hqu, h]

/-- Different types have different names. `_partial`: without pointers that are themselves `const` or `volatile` and
without allocators among the arguments of templates. -/
theorem C141_distinct_partial {t u : Ty} (ht : Proper t) (hu : Proper u) (hst : Simple t) (hsu : Simple u) (hq : NoQualArray t)
    (h : name t = name u) : t = u := by
  obtain ⟨s, hs⟩ := Option.isSome_iff_exists.mp ((C141_exists t).mpr hq)
  exact says_inj t u hst hsu (name_inj ht hu hs (h ▸ hs))

/-- The name is the spelling in C++. `_partial`: besides, without pointers and references to arrays and without arrays of arrays. -/
theorem C141_spelling_partial {t : Ty} (ht : Proper t) (hs : Simple t) (hq : NoQualArray t) (hn : NoNestedArray t) :
    name t = some (spell t []) := by
  rw [(name_eq t).1 hq, spell_eq t ht hs hn]

/-- `Map<const i32*, Function<void(i32&)>>*[3]`. -/
private def sample : Ty :=
  .arr (.ptr false false (.inst false false (lit "Map")
    (.ty (.ptr false false (int true)) (.ty (.func false false (.named false false (lit "void")) (.ty (.lref int) .nil)) .nil)))) 3

example : Proper sample ∧ Simple sample ∧ NoQualArray sample ∧ NoNestedArray sample ∧
    name sample = some (lit "Map<const i32*, Function<void(i32&)>>*[3]") := by
  have h : ∀ {n : List Byte}, (n = lit "Map" ∨ n = lit "i32" ∨ n = lit "void") → Ident n := by
    intro n hn
    refine ⟨?_, ?_⟩
    · rcases hn with rfl | rfl | rfl <;> unfold IdByte <;> decide +kernel
    · rcases hn with rfl | rfl | rfl <;> exact ⟨_, _, rfl, by decide +kernel⟩
  refine ⟨⟨⟨⟨h (.inl rfl), by decide +kernel, ⟨⟨h (.inr (.inl rfl)), fun h => h⟩, ⟨⟨h (.inr (.inr rfl)), ⟨h (.inr (.inl rfl)), fun h => h⟩,
    trivial⟩, trivial⟩⟩⟩, fun h => h⟩, fun h => h, by omega⟩, ?_, ?_, ?_, by decide +kernel⟩
  · simp [sample, int, Simple, Simples]
  · simp [sample, int, NoQualArray, NoQualArrays, Qualified]
  · simp [sample, int, NoNestedArray, NoNestedArrays, isArr]

/-- **C141 is false.** A `const` pointer and a pointer to `const` have the same name; so do vectors with different allocators. The
dimensions of an array of arrays are in the wrong order, and a pointer to an array is written in a way C++ does not know. There
is no name for an array of `const`. -/
theorem C141_false :
    (name (.ptr true false int) = name (.ptr false false (int true)) ∧ Ty.ptr true false int ≠ .ptr false false (int true)) ∧
    (name (.inst false false (lit "Vec") (.ty int (.alloc 0 .nil))) = name (.inst false false (lit "Vec") (.ty int (.alloc 1 .nil)))) ∧
    (name (.arr (.arr int 3) 2) = some (lit "i32[3][2]") ∧ spell (.arr (.arr int 3) 2) [] = lit "i32[2][3]") ∧
    (name (.ptr false false (.arr int 3)) = some (lit "i32[3]*") ∧ spell (.ptr false false (.arr int 3)) [] = lit "i32(*)[3]") ∧
    name (.arr (int true) 3) = none := by
  refine ⟨⟨by decide +kernel, by simp [int]⟩, by decide +kernel, ⟨by decide +kernel, by decide +kernel⟩,
    ⟨by decide +kernel, by decide +kernel⟩, by decide +kernel⟩

end Rpp.Props
