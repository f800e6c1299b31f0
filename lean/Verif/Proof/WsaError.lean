import Verif.Model.WsaError
import Verif.Proof.FormatLen
import Verif.Proof.FormatText

/-! Lemmas about the buffer of socket errors. -/

namespace Rpp.Wsa

theorem read_put (buf text : List Byte) (n : Nat) (h : n ≤ text.length) : read (put buf text) n = text.take n := by
  simp [read, put, List.take_append_of_le_length h]

theorem put_length {buf text : List Byte} (h : text.length < buf.length) : (put buf text).length = buf.length := by
  simp [put]; omega

theorem put_end (buf text : List Byte) : (put buf text)[text.length]? = some 0#8 := by
  simp [put]

theorem errorCode_text {msg : Int → List Byte} {err : Int} {buf : List Byte} (h1 : 2 ≤ (msg err).length) (h2 : (msg err).length ≤ 255) :
    errorCode msg err buf = .ok ((msg err).length - 1, put buf (msg err)) := by
  have h3 : (msg err).length + 1 ≤ size := by unfold size; omega
  unfold errorCode format
  rw [if_pos h3]
  simp only
  rw [if_neg (by omega), if_neg (by omega)]

theorem errorCode_number {msg : Int → List Byte} {err : Int} {buf : List Byte} (h : (msg err).length < 2 ∨ 255 < (msg err).length) :
    ∃ b, errorCode msg err buf =
      .ok ((lit "WinSock Error: " ++ Fmt.intText err).length, put b (lit "WinSock Error: " ++ Fmt.intText err)) := by
  have hl : (Fmt.intText err).length ≤ 21 := intText_length err
  have hk : (lit "WinSock Error: ").length = 15 := by decide
  have ht : ¬ ((lit "WinSock Error: " ++ Fmt.intText err).length = 0 ∨ size < (lit "WinSock Error: " ++ Fmt.intText err).length + 1) := by
    rw [List.length_append, hk]; unfold size; omega
  unfold errorCode format
  by_cases h2 : (msg err).length + 1 ≤ size
  · rw [if_pos h2]
    refine ⟨put buf (msg err), ?_⟩
    simp only
    rw [if_neg (by omega), if_pos (by unfold size at h2; omega), if_neg ht]
  · rw [if_neg h2]
    refine ⟨buf, ?_⟩
    simp only
    rw [if_neg (by unfold size; omega), if_pos (by omega), if_neg ht]

/-- The first byte of a character in UTF-8. -/
theorem lead (c : Char) : ∃ b r, String.utf8EncodeChar c = b :: r ∧ (b.toNat < 0x80 ∨ 0xC0 ≤ b.toNat ∧ b.toNat < 0xF8) := by
  have hv : c.val.toNat < 0x110000 := by
    have := c.valid
    rcases this with h | h <;> omega
  have hc : c.toNat = c.val.toNat := rfl
  unfold String.utf8EncodeChar
  simp only
  split
  · exact ⟨_, _, rfl, .inl (by simp; omega)⟩
  · split
    · exact ⟨_, _, rfl, .inr (by simp; omega)⟩
    · split
      · exact ⟨_, _, rfl, .inr (by simp; omega)⟩
      · exact ⟨_, _, rfl, .inr (by simp; omega)⟩

end Rpp.Wsa
