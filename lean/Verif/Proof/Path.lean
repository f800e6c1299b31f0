import Verif.Proof.NetWin
import Verif.Props.Str
import Verif.Model.Path
import Verif.Spec.Path

/-! # Names handed to the system: lemmas -/

namespace Rpp.Path
open Rpp.Props Rpp.Spec.Path

theorem posix_name {v : View} (hv : v.Valid) : Path.posix v = .ok (v.bytes.takeWhile (· != 0#8)) := by
  obtain ⟨r, h1, h2, h3⟩ := C42_terminate hv
  unfold Path.posix
  simp only [h1, bind, Except.bind]
  rw [h3, Address.mapM_some]
  dsimp only
  rw [Address.text_spec]
  simp only [View.of, List.drop_zero]
  rw [if_pos (by simp), Address.takeWhile_zero]

theorem takeWhile_units (l r : List (BitVec 16)) (h : 0#16 ∉ l) : (l ++ 0#16 :: r).takeWhile (· != 0#16) = l := by
  induction l with
  | nil => rfl
  | cons x l ih =>
    rw [List.mem_cons, not_or] at h
    rw [List.cons_append, List.takeWhile_cons, ih h.2]
    simp [Ne.symm h.1]

theorem windows_name {conv : List Byte → List (BitVec 16)} (hc : Conv conv) {v : View} (hv : v.Valid) (hl : v.len + 1 < 2 ^ 31) :
    Path.windows conv v =
      .ok (if (conv v.bytes).length ≤ 259 then some ((conv v.bytes ++ [0#16]).takeWhile (· != 0#16)) else none) := by
  obtain ⟨r, h1, h2, h3⟩ := C42_terminate hv
  have hb : v.bytes.length = v.len := View.bytes_length hv
  have e1 : conv (v.bytes ++ [0#8]) = conv v.bytes ++ [0#16] := by rw [hc.split, hc.empty]
  have hn : (v.bytes ++ [0#8]).length % 2 ^ 32 = v.len + 1 := by simp [hb]; omega
  unfold Path.windows
  simp only [h1, bind, Except.bind]
  rw [h3, Address.mapM_some]
  dsimp only
  unfold toWide
  dsimp only
  rw [hn, if_neg (by omega), List.take_of_length_le (by simp [hb]), e1]
  simp only [List.length_append, List.length_singleton, maxPath]
  by_cases h : (conv v.bytes).length ≤ 259
  · rw [if_neg (by omega), if_pos h]
    dsimp only
    unfold wideName
    rw [if_pos (by simp)]
  · rw [if_pos (by omega), if_neg h]

/-- ASCII text meets what is asked of the conversion. -/
theorem ascii_conv : Conv ascii := by
  refine ⟨rfl, fun a b => by simp [ascii], fun a ha h => ?_⟩
  obtain ⟨x, hx, e⟩ := List.mem_map.mp h
  have : x = 0#8 := by
    apply BitVec.eq_of_toNat_eq
    have := congrArg BitVec.toNat e
    simp at this
    have h2 := x.isLt
    simpa using (by omega : x.toNat = 0)
  exact ha (this ▸ hx)

end Rpp.Path
