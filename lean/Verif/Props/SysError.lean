import Verif.Proof.SysError

/-!
# C133: the text of a system error on Windows

`msg e` is the text the system has for error `e`, in UTF-16 and with a line end, `[13, 10]`. Full statement: `Log::sys_error` returns
and gives the text without the line end, or the number of the error if there is no text.
-/

namespace Rpp.Props
open Rpp.SysErr
open Rpp.Spec.SysErr (utf16)

/-- The text of `e` is taken, but its conversion does not fit into the buffer. -/
def TooLong (msg : Nat → List Wide) (e : Nat) : Prop :=
  2 ≤ (msg e).length ∧ (msg e).length ≤ 255 ∧ 256 < (utf8 (msg e).dropLast).length

/-- **C133, partial.** For each error with a text of two to 255 units that converts to at most 256 bytes, the result is the text in
UTF-8 without the last unit; nothing is logged. Errors without text, or with a longer one, are given by their number. Missing because
false: `C133_return`, `C133_recursion`. -/
theorem C133_text_partial (msg : Nat → List Wide) (f e : Nat) (he : e ≠ 0) :
    (2 ≤ (msg e).length → (msg e).length ≤ 255 → (utf8 (msg e).dropLast).length ≤ 256 →
      sysError msg (f + 1) e = .ok (utf8 (msg e).dropLast, [])) ∧
    ((msg e).length < 2 ∨ 255 < (msg e).length → sysError msg (f + 1) e = .ok (lit "Win32 Error: " ++ Fmt.intText e, [])) ∧
    sysError msg (f + 1) 0 = .ok ([], []) := by
  refine ⟨fun h1 h2 h3 => ?_, fun h => ?_, ?_⟩
  · rw [sysError_succ, if_neg he, if_neg (by omega), if_pos h3]
  · rw [sysError_succ, if_neg he, if_pos (by omega)]
    rfl
  · rw [sysError_succ, if_pos rfl]

/-- 85 units always fit: a unit gives at most three bytes. -/
theorem C133_fits (w : List Wide) (h : w.length ≤ 85) : (utf8 w).length ≤ 256 := by
  have := utf8_length w
  omega

/-- The conversion gives every text of characters in UTF-8; a unit of half a pair without the other half is replaced by U+FFFD. -/
theorem C133_conversion :
    (∀ cs : List Char, utf8 (cs.flatMap utf16) = (cs.flatMap String.utf8EncodeChar).map UInt8.toBitVec) ∧
    ∀ (u : Wide) (r : List Wide), 0xD800 ≤ u.toNat → u.toNat ≤ 0xDFFF →
      (0xDC00 ≤ u.toNat ∨ ∀ v, r.head? = some v → v.toNat < 0xDC00 ∨ 0xDFFF < v.toNat) →
      utf8 (u :: r) = [0xEF#8, 0xBF#8, 0xBD#8] ++ utf8 r := by
  refine ⟨fun cs => ?_, fun u r h1 h2 h3 => ?_⟩
  · induction cs with
    | nil => rfl
    | cons c cs ih => rw [List.flatMap_cons, List.flatMap_cons, List.map_append, ← ih, utf8_char, utf8Point_char]
  · have hs : single u = 0xFFFD := by unfold single; rw [if_pos (by omega)]
    cases r with
    | nil => rw [utf8, utf8, hs]; rfl
    | cons v r =>
      have hp : pair u v = none := by
        unfold pair
        rw [if_neg]
        rcases h3 with h3 | h3
        · omega
        · have := h3 v rfl; omega
      rw [utf8, hp, hs]
      rfl

/-- **C133 is false:** the carriage return of the line end stays in the result, for all texts that fit. -/
theorem C133_return (msg : Nat → List Wide) (f e : Nat) (he : e ≠ 0) (t : List Wide) (ht : msg e = t ++ [13#16, 10#16])
    (h1 : t.length ≤ 253) (h2 : (utf8 t).length ≤ 255) :
    sysError msg (f + 1) e = .ok (utf8 t ++ [13#8], []) := by
  have hd : (msg e).dropLast = t ++ [13#16] := by
    rw [ht, show t ++ [13#16, 10#16] = (t ++ [13#16]) ++ [10#16] by simp, List.dropLast_concat]
  have hu : utf8 (msg e).dropLast = utf8 t ++ [13#8] := by rw [hd, utf8_snoc (by decide)]; rfl
  have hl : (msg e).length = t.length + 2 := by rw [ht]; simp
  rw [(C133_text_partial msg f e he).1 (by omega) (by omega) (by rw [hu]; simp; omega), hu]

/-- **C133, partial.** The call returns for every error exactly if the text of error 122, the one the conversion fails with, is not
too long itself. Two calls deep is enough. -/
theorem C133_returns_iff (msg : Nat → List Wide) :
    ((∀ e f, 2 ≤ f → ∃ r, sysError msg f e = .ok r) ↔ ¬ TooLong msg 122) ∧
    ((∀ e, ∃ f r, sysError msg f e = .ok r) ↔ ¬ TooLong msg 122) := by
  have hang : TooLong msg 122 → ∀ f, sysError msg f 122 = .error .hang := by
    rintro ⟨h1, h2, h3⟩ f
    induction f with
    | zero => rfl
    | succ f ih => rw [sysError_succ, if_neg (by decide), if_neg (by omega), if_neg (by omega), ih]
  have fine : ¬ TooLong msg 122 → ∀ f, ∃ r, sysError msg (f + 1) 122 = .ok r := by
    intro h f
    unfold TooLong at h
    rw [sysError_succ, if_neg (by decide)]
    split
    · exact ⟨_, rfl⟩
    · rw [if_pos (by omega)]
      exact ⟨_, rfl⟩
  have all : ¬ TooLong msg 122 → ∀ e f, 2 ≤ f → ∃ r, sysError msg f e = .ok r := by
    intro h e f hf
    obtain ⟨g, rfl⟩ : ∃ g, f = g + 1 + 1 := ⟨f - 2, by omega⟩
    obtain ⟨⟨why, ws⟩, hr⟩ := fine h g
    rw [sysError_succ, hr]
    split
    · exact ⟨_, rfl⟩
    · split
      · exact ⟨_, rfl⟩
      · split
        · exact ⟨_, rfl⟩
        · exact ⟨_, rfl⟩
  refine ⟨⟨fun h hl => ?_, all⟩, ⟨fun h hl => ?_, fun h e => ⟨2, all h e 2 (Nat.le_refl _)⟩⟩⟩
  · obtain ⟨r, hr⟩ := h 122 2 (Nat.le_refl _)
    rw [hang hl] at hr
    cases hr
  · obtain ⟨f, r, hr⟩ := h 122
    rw [hang hl] at hr
    cases hr

/-- A text that is too long is given by its number, with a warning that has the text of error 122. -/
theorem C133_too_long (msg : Nat → List Wide) (f e : Nat) (he : e ≠ 0) (hl : TooLong msg e)
    (h1 : 2 ≤ (msg 122).length) (h2 : (msg 122).length ≤ 86) :
    sysError msg (f + 2) e = .ok (lit "Win32 Error: " ++ Fmt.intText e,
      [lit "Failed to convert ucs2 to utf8: " ++ utf8 (msg 122).dropLast]) := by
  obtain ⟨g1, g2, g3⟩ := hl
  have hf := C133_fits (msg 122).dropLast (by rw [List.length_dropLast]; omega)
  rw [show f + 2 = f + 1 + 1 from rfl, sysError_succ, if_neg he, if_neg (by omega), if_neg (by omega),
    (C133_text_partial msg f 122 (by decide)).1 h1 (by omega) hf]
  rfl

/-- **C133 is false:** in a language in which the text of error 122 is too long, a call for an error whose text is too long never
returns; each level of the recursion asks for error 122 again. -/
theorem C133_recursion (msg : Nat → List Wide) (h : TooLong msg 122) (e : Nat) (he : e ≠ 0) (hl : TooLong msg e) (f : Nat) :
    sysError msg f e = .error .hang := by
  have hang : ∀ f, sysError msg f 122 = .error .hang := by
    intro f
    obtain ⟨h1, h2, h3⟩ := h
    induction f with
    | zero => rfl
    | succ f ih => rw [sysError_succ, if_neg (by decide), if_neg (by omega), if_neg (by omega), ih]
  obtain ⟨h1, h2, h3⟩ := hl
  cases f with
  | zero => rfl
  | succ f => rw [sysError_succ, if_neg he, if_neg (by omega), if_neg (by omega), hang]

/-- Error 5, `Access is denied.`; and an error without text. -/
example :
    let msg := fun e => if e = 5 then (lit "Access is denied.").map (·.zeroExtend 16) ++ [13#16, 10#16] else []
    sysError msg 1 5 = .ok (lit "Access is denied." ++ [13#8], []) ∧ sysError msg 1 1234 = .ok (lit "Win32 Error: 1234", []) := by
  decide +kernel

/-- 90 Chinese characters are 270 bytes. -/
example :
    let msg := fun e => if e = 5 then List.replicate 90 0x8A0A#16 ++ [13#16, 10#16] else (lit "small.").map (·.zeroExtend 16) ++ [13#16, 10#16]
    TooLong msg 5 ∧ ¬ TooLong msg 122 ∧
    sysError msg 2 5 = .ok (lit "Win32 Error: 5", [lit "Failed to convert ucs2 to utf8: small." ++ [13#8]]) := by
  unfold TooLong
  decide +kernel

/-- With such a text for error 122 too. -/
example : TooLong (fun _ => List.replicate 90 0x8A0A#16 ++ [13#16, 10#16]) 122 := by
  unfold TooLong
  decide +kernel

/-- Four characters, the third a pair, the last the first one above the surrogates. -/
example : (['H', 'é', '😀', Char.ofNat 0xE000].flatMap utf16) = [0x48#16, 0xE9#16, 0xD83D#16, 0xDE00#16, 0xE000#16] := by decide +kernel

/-- A pair of surrogates is one character of four bytes, a lone one is replaced. -/
example : utf8 [0x48#16, 0xD83D#16, 0xDE00#16, 0xE9#16, 0xD83D#16] =
    [0x48#8, 0xF0#8, 0x9F#8, 0x98#8, 0x80#8, 0xC3#8, 0xA9#8, 0xEF#8, 0xBF#8, 0xBD#8] := by decide +kernel

end Rpp.Props
