import Verif.Proof.Path

/-!
# C131: files are opened under the name given
-/

namespace Rpp.Props
open Rpp.Path Rpp.Spec.Path

/-- **C131, partial.** On POSIX the system gets the bytes of the view if there is no zero byte among them, wherever the view points
and whatever follows it. Full statement: for all views, a file is opened under the name given or not at all. Missing because
false: `C131_false`. -/
theorem C131_posix_partial {v : View} (hv : v.Valid) (hz : 0#8 ∉ v.bytes) : Path.posix v = .ok v.bytes := by
  rw [posix_name hv, ← Address.takeWhile_zero, Address.takeWhile_stop _ _ hz]

example : Path.posix ⟨lit "cd /tmp/a.txt; ls", 3, 10⟩ = .ok (lit "/tmp/a.txt") := by decide +kernel

/-- **C131 is false**: with a zero byte in it, the file opened is the one named by what is before that byte, for all views. -/
theorem C131_false {v : View} (hv : v.Valid) {a b : List Byte} (h : v.bytes = a ++ 0#8 :: b) (ha : 0#8 ∉ a) :
    Path.posix v = .ok a ∧ v.bytes ≠ a := by
  constructor
  · rw [posix_name hv, h, Address.takeWhile_stop _ _ ha]
  · intro e
    have := congrArg List.length (h.symm.trans e)
    simp at this

/-- `a.txt`, a zero byte and `.bak`: the file `a.txt`. -/
example : Path.posix ⟨lit "a.txt" ++ 0#8 :: lit ".bak", 0, 10⟩ = .ok (lit "a.txt") := by decide +kernel

/-- **C131 on Windows, partial.** Without a zero byte, and if the converted name has at most 259 units, that is the name the system
gets; with more, the call fails. -/
theorem C131_windows_partial {conv : List Byte → List (BitVec 16)} (hc : Conv conv) {v : View} (hv : v.Valid) (hl : v.len + 1 < 2 ^ 31)
    (hz : 0#8 ∉ v.bytes) :
    Path.windows conv v = .ok (if (conv v.bytes).length ≤ 259 then some (conv v.bytes) else none) := by
  rw [windows_name hc hv hl, takeWhile_units _ _ (hc.nonzero _ hz)]

example : Path.windows ascii ⟨lit "C:\\a.txt and more", 0, 8⟩ = .ok (some (ascii (lit "C:\\a.txt"))) :=
  C131_windows_partial ascii_conv ⟨by decide, by decide⟩ (by decide) (by decide)

/-- On Windows too a name ends at a zero byte. -/
theorem C131_windows_false {conv : List Byte → List (BitVec 16)} (hc : Conv conv) {v : View} (hv : v.Valid) (hl : v.len + 1 < 2 ^ 31)
    {a b : List Byte} (h : v.bytes = a ++ 0#8 :: b) (ha : 0#8 ∉ a) (hs : (conv v.bytes).length ≤ 259) :
    Path.windows conv v = .ok (some (conv a)) := by
  rw [windows_name hc hv hl, if_pos hs, h, hc.split, List.append_assoc, List.cons_append, takeWhile_units _ _ (hc.nonzero _ ha)]

example : Path.windows ascii ⟨lit "a.txt" ++ 0#8 :: lit ".bak", 0, 10⟩ = .ok (some (ascii (lit "a.txt"))) := by
  decide +kernel

/-- A name of 260 letters cannot be opened. -/
example : Path.windows ascii (View.of (List.replicate 260 (ch 'x'))) = .ok none := by decide +kernel

end Rpp.Props
