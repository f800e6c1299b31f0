import Verif.Spec.SysError

/-! The text of a system error: lemmas. -/

namespace Rpp.SysErr

theorem utf8Point_length (c : Nat) : 1 ≤ (utf8Point c).length ∧ (utf8Point c).length ≤ 4 ∧
    (c < 0x10000 → (utf8Point c).length ≤ 3) := by
  unfold utf8Point
  split
  · simp
  · split
    · simp
    · split
      · simp
      · simp only [List.length_cons, List.length_nil]
        omega

theorem single_lt (u : Wide) : single u < 0x10000 := by
  unfold single
  split
  · omega
  · exact u.isLt

theorem utf8_length : ∀ w : List Wide, (utf8 w).length ≤ 3 * w.length
  | [] => by simp [utf8]
  | [u] => by
    have := (utf8Point_length (single u)).2.2 (single_lt u)
    simp only [utf8, List.length_cons, List.length_nil]
    omega
  | u :: v :: r => by
    simp only [utf8]
    cases h : pair u v with
    | some c =>
      have h1 := (utf8Point_length c).2.1
      have h2 := utf8_length r
      simp only [List.length_append, List.length_cons]
      omega
    | none =>
      have h1 := (utf8Point_length (single u)).2.2 (single_lt u)
      have h2 := utf8_length (v :: r)
      simp only [List.length_append, List.length_cons] at h2 ⊢
      omega

theorem pair_ascii {u v : Wide} (h : v.toNat < 0xD800) : pair u v = none := by
  unfold pair
  rw [if_neg]
  omega

theorem utf8_snoc {v : Wide} (h : v.toNat < 0x80) : ∀ w : List Wide, utf8 (w ++ [v]) = utf8 w ++ [BitVec.ofNat 8 v.toNat]
  | [] => by
    have e : single v = v.toNat := by
      unfold single
      rw [if_neg (by omega)]
    simp only [List.nil_append, utf8, e, utf8Point, if_pos h]
  | [u] => by
    have e := utf8_snoc h []
    simp only [List.nil_append] at e
    simp only [List.cons_append, List.nil_append, utf8, pair_ascii (u := u) (v := v) (by omega)]
    simp only [utf8] at e
    rw [e, List.nil_append]
  | u :: a :: r => by
    simp only [List.cons_append, utf8]
    cases pair u a with
    | some c =>
      dsimp only
      rw [utf8_snoc h r, List.append_assoc]
    | none =>
      dsimp only
      have e := utf8_snoc h (a :: r)
      rw [List.cons_append] at e
      rw [e, List.append_assoc]

/-- One call, by cases. -/
theorem sysError_succ (msg : Nat → List Wide) (f err : Nat) : sysError msg (f + 1) err =
    if err = 0 then .ok ([], [])
    else if (msg err).length ≤ 1 ∨ 256 ≤ (msg err).length then .ok (basic err, [])
    else if (utf8 (msg err).dropLast).length ≤ 256 then .ok (utf8 (msg err).dropLast, [])
    else match sysError msg f 122 with
      | .error e => .error e
      | .ok (why, ws) => .ok (basic err, ws ++ [lit "Failed to convert ucs2 to utf8: " ++ why]) := by
  rw [sysError]
  dsimp only
  unfold format
  by_cases h0 : err = 0
  · rw [if_pos h0, if_pos h0]
  · rw [if_neg h0, if_neg h0]
    by_cases h1 : (msg err).length + 1 ≤ wideSize
    · rw [if_pos h1, if_neg (by omega : ¬ wideSize < (msg err).length + 1)]
      have h1' : ¬ 256 ≤ (msg err).length := by unfold wideSize at h1; omega
      simp only [h1', or_false, ← List.dropLast_eq_take]
      rfl
    · have h1' : 256 ≤ (msg err).length := by unfold wideSize at h1; omega
      rw [if_neg h1, if_neg (by decide : ¬ wideSize < ([] : List Wide).length + 1),
        if_pos (by decide : ([] : List Wide).length ≤ 1)]
      simp only [h1', or_true, if_true]

theorem utf8Point_char (c : Char) : utf8Point c.val.toNat = (String.utf8EncodeChar c).map UInt8.toBitVec := by
  have hv : c.val.toNat < 0x110000 := by
    rcases c.valid with h | h
    · exact Nat.lt_trans h (by decide)
    · exact h.2
  unfold utf8Point String.utf8EncodeChar
  simp only
  generalize c.val.toNat = v at *
  have eb : ∀ {a b : Nat} {l : List Byte} {m : List UInt8}, a = b → l = m.map UInt8.toBitVec →
      BitVec.ofNat 8 a :: l = (UInt8.ofNat b :: m).map UInt8.toBitVec := fun h h' => by rw [h, h']; rfl
  by_cases h1 : v < 0x80
  · rw [if_pos h1, if_pos (by omega)]; rfl
  rw [if_neg h1, if_neg (by omega : ¬ v ≤ 127)]
  by_cases h2 : v < 0x800
  · rw [if_pos h2, if_pos (by omega)]
    exact eb (by omega) (eb (by omega) rfl)
  rw [if_neg h2, if_neg (by omega : ¬ v ≤ 2047)]
  by_cases h3 : v < 0x10000
  · rw [if_pos h3, if_pos (by omega)]
    exact eb (by omega) (eb (by omega) (eb (by omega) rfl))
  rw [if_neg h3, if_neg (by omega : ¬ v ≤ 65535)]
  exact eb (by omega) (eb (by omega) (eb (by omega) (eb (by omega) rfl)))

/-- A character is converted on its own. -/
theorem utf8_char (c : Char) (r : List Wide) : utf8 (Spec.SysErr.utf16 c ++ r) = utf8Point c.val.toNat ++ utf8 r := by
  have hv : c.val.toNat < 0xD800 ∨ (0xDFFF < c.val.toNat ∧ c.val.toNat < 0x110000) := c.valid
  unfold Spec.SysErr.utf16
  generalize c.val.toNat = v at *
  by_cases h : v < 0x10000
  · rw [if_pos h]
    have hn : (BitVec.ofNat 16 v).toNat = v := by rw [BitVec.toNat_ofNat]; omega
    have hs : single (BitVec.ofNat 16 v) = v := by unfold single; rw [hn, if_neg (by omega)]
    cases r with
    | nil => rw [List.append_nil, utf8, utf8, hs, List.append_nil]
    | cons w r =>
      have hp : pair (BitVec.ofNat 16 v) w = none := by unfold pair; rw [hn, if_neg (by omega)]
      rw [List.singleton_append, utf8, hp, hs]
  · rw [if_neg h]
    have h1 : (BitVec.ofNat 16 (0xD800 + (v - 0x10000) / 0x400)).toNat = 0xD800 + (v - 0x10000) / 0x400 := by
      rw [BitVec.toNat_ofNat]; omega
    have h2 : (BitVec.ofNat 16 (0xDC00 + (v - 0x10000) % 0x400)).toNat = 0xDC00 + (v - 0x10000) % 0x400 := by
      rw [BitVec.toNat_ofNat]; omega
    have hp : pair (BitVec.ofNat 16 (0xD800 + (v - 0x10000) / 0x400)) (BitVec.ofNat 16 (0xDC00 + (v - 0x10000) % 0x400)) = some v := by
      unfold pair
      rw [h1, h2, if_pos (by omega)]
      exact congrArg some (by omega)
    rw [List.cons_append, List.singleton_append, utf8, hp]

end Rpp.SysErr
