import Verif.Proof.PosError

/-!
# C177: the text of a system error on Linux and macOS

Full statement: `Log::sys_error` and the `error` of threads return the text the C library has for the error, or one that names its number,
and the text stays as it is while the view is in use.
-/

namespace Rpp.Props
open Rpp.PosErr

/-- **C177, Linux.** The view reads as the text of the library, whatever happens to the buffer later; for an unknown number as `Unknown
error` and the number. -/
theorem C177_linux (msg : Int → Option (List Byte)) (err : Int) (h32 : -2 ^ 31 ≤ err ∧ err < 2 ^ 31) (buf : List Byte) :
    (∀ t, msg err = some t → ∀ later, (linux msg err buf).1.read later = t) ∧
    (msg err = none → (linux msg err buf).1.read (linux msg err buf).2 = lit "Unknown error " ++ lit (toString err)) := by
  refine ⟨fun t ht later => by simp only [linux, ht, View.read], fun h => ?_⟩
  simp only [linux, h]
  rw [cut_short (unknown_short _ (by decide) err), read_buffer, intText_eq (by omega) (by omega)]
  rfl

/-- **C177, macOS, partial.** For an error the library knows, with a text shorter than the buffer, the view reads as the text. Missing: other
errors, for which the process ends (`C177_mac_dies`), and that the text stays (`C177_next_false`). -/
theorem C177_mac_partial (msg : Int → Option (List Byte)) (err : Int) (buf t : List Byte) (ht : msg err = some t) (hl : t.length ≤ 255) :
    ∃ v b, mac msg err buf = .ok (v, b) ∧ v.read b = t := by
  have h : t.length < size := by unfold size; omega
  refine ⟨.buffer t.length, Wsa.put buf t, ?_, read_buffer _ _⟩
  simp only [mac, strerror, ht, if_pos h, cut_short h, if_true]

/-- On macOS the process ends, by the failed check and not with the message the text was for, exactly for the errors the library does
not know and those with long texts. -/
theorem C177_mac_dies (msg : Int → Option (List Byte)) (err : Int) (buf : List Byte) :
    mac msg err buf = .error .die ↔ ∀ t, msg err = some t → 256 ≤ t.length := by
  cases h : msg err with
  | none => simp [mac, strerror, h]
  | some t =>
    by_cases ht : t.length < 256
    · simp [mac, strerror, h, size, ht]
    · simp [mac, strerror, h, size, ht]; omega

/-- **C177 is false.** An unknown number ends the process on macOS. The next call changes what a view reads as: on Linux for unknown numbers,
on macOS for all. -/
theorem C177_next_false :
    let msg : Int → Option (List Byte) := fun e => if e = 1 then some (lit "Not allowed") else if e = 2 then some (lit "Not found!!") else none
    let zero := List.replicate 256 0#8
    mac msg 200 zero = .error .die ∧
    ((linux msg 200 zero).1.read (linux msg 201 (linux msg 200 zero).2).2 = lit "Unknown error 201") ∧
    ((do
      let (v, b) ← mac msg 1 zero
      let (_, b') ← mac msg 2 b
      return (v.read b, v.read b')) = .ok (lit "Not allowed", lit "Not found!!")) := by
  decide +kernel

/-- The calls write within the buffer, also where the text is cut, and end what they write with a terminator: on macOS whether or not
the process ends, and on Linux for the numbers the library does not know. -/
theorem C177_room (msg : Int → Option (List Byte)) (err : Int) (buf : List Byte) (hb : buf.length = 256) :
    (strerror msg err buf).2.2.length = 256 ∧ (strerror msg err buf).2.2[(strerror msg err buf).2.1]? = some 0#8 ∧
    (linux msg err buf).2.length = 256 ∧ (msg err = none → ∃ n, (linux msg err buf).1 = .buffer n ∧ (linux msg err buf).2[n]? = some 0#8) := by
  have hc : ∀ t : List Byte, (Wsa.put buf (cut t)).length = 256 := fun t =>
    (Wsa.put_length (by rw [cut, List.length_take]; unfold size; omega)).trans hb
  cases h : msg err with
  | none =>
    simp only [strerror, linux, h]
    exact ⟨hc _, Wsa.put_end _ _, hc _, fun _ => ⟨_, rfl, Wsa.put_end _ _⟩⟩
  | some t =>
    simp only [strerror, linux, h]
    exact ⟨hc _, Wsa.put_end _ _, hb, fun h => nomatch h⟩

/-- Known errors on both. -/
example :
    let msg : Int → Option (List Byte) := fun e => if e = 1 then some (lit "Not allowed") else none
    let zero := List.replicate 256 0#8
    (linux msg 1 zero).1.read (linux msg 5 zero).2 = lit "Not allowed" ∧
    (mac msg 1 zero).toOption.map (fun r => r.1.read r.2) = some (lit "Not allowed") ∧
    (linux msg (-7) zero).1.read (linux msg (-7) zero).2 = lit "Unknown error -7" := by
  decide +kernel

/-- A text that does not fit is cut. -/
example :
    let r := strerror (fun _ => some (List.replicate 300 65#8)) 1 (List.replicate 256 1#8)
    (r.1, r.2.1, r.2.2.length, r.2.2[255]?) = (34, 255, 256, some 0#8) := by
  decide +kernel

end Rpp.Props
