import Verif.Proof.WsaError

/-!
# C176: the text of a socket error on Windows

Full statement: `wsa_error` gives the text the system has for the error, without the end of line, in UTF-8, or the number of the error if
there is none; the text stays as it is while the view is in use.
-/

namespace Rpp.Props
open Rpp.Wsa

/-- **C176, partial.** The call always returns. The view reads as the text of the system without its last byte if that has 2 to 255 bytes, and
otherwise as the number of the error; it is empty if there was no error. Missing: that the end of line is gone, the
encoding, longer texts, and that the text stays; see `C176_return`, `C176_false` and `C176_next`. -/
theorem C176_text_partial (msg : Int → List Byte) (err : Int) (h32 : -2 ^ 31 ≤ err ∧ err < 2 ^ 31) (buf : List Byte) :
    ∃ v b, Wsa.error msg err buf = .ok (v, b) ∧
      Wsa.read b v =
        if err = 0 then []
        else if 2 ≤ (msg err).length ∧ (msg err).length ≤ 255 then (msg err).dropLast
        else lit "WinSock Error: " ++ lit (toString err) := by
  unfold Wsa.error
  by_cases he : err = 0
  · rw [if_pos he, if_pos he]
    exact ⟨0, buf, rfl, rfl⟩
  · rw [if_neg he, if_neg he]
    by_cases h : 2 ≤ (msg err).length ∧ (msg err).length ≤ 255
    · rw [errorCode_text h.1 h.2, if_pos h]
      exact ⟨_, _, rfl, by rw [read_put _ _ _ (by omega), List.dropLast_eq_take]⟩
    · rw [if_neg h]
      obtain ⟨b, e⟩ := errorCode_number (msg := msg) (err := err) (buf := buf) (by omega)
      refine ⟨_, _, e, ?_⟩
      rw [read_put _ _ _ (Nat.le_refl _), List.take_length, intText_eq (by omega) (by omega)]
      rfl

/-- The texts of the system end in a carriage return and a line feed; only the line feed is dropped. -/
theorem C176_return (msg : Int → List Byte) (err : Int) (he : err ≠ 0) (buf t : List Byte) (ht : msg err = t ++ [13#8, 10#8])
    (hl : t.length ≤ 253) : ∃ v b, Wsa.error msg err buf = .ok (v, b) ∧ Wsa.read b v = t ++ [13#8] := by
  have hlen : (msg err).length = t.length + 2 := by rw [ht]; simp
  unfold Wsa.error
  rw [if_neg he, errorCode_text (by omega) (by omega)]
  refine ⟨_, _, rfl, ?_⟩
  rw [read_put _ _ _ (by omega), hlen, ht]
  simp [List.take_append, List.take_of_length_le]

/-- The next call in the same thread changes what the view reads as: for texts of the same length it then reads as the next
text. -/
theorem C176_next (msg : Int → List Byte) {e1 e2 : Int} (h1 : e1 ≠ 0) (h2 : e2 ≠ 0) (buf : List Byte)
    (hl : (msg e1).length = (msg e2).length) (hm : 2 ≤ (msg e1).length ∧ (msg e1).length ≤ 255) :
    ∃ v1 b1 v2 b2, Wsa.error msg e1 buf = .ok (v1, b1) ∧ Wsa.error msg e2 b1 = .ok (v2, b2) ∧
      Wsa.read b1 v1 = (msg e1).dropLast ∧ Wsa.read b2 v1 = (msg e2).dropLast := by
  unfold Wsa.error
  rw [if_neg h1, errorCode_text hm.1 hm.2]
  refine ⟨_, _, _, _, rfl, by rw [if_neg h2]; exact errorCode_text (by omega) (by omega), ?_, ?_⟩
  · rw [read_put _ _ _ (by omega), List.dropLast_eq_take]
  · rw [read_put _ _ _ (by omega), List.dropLast_eq_take, hl]

/-- **C176 is false.** On a system with texts in the code page 1252 the text is in no case UTF-8 if it begins with a letter such as `ü`
(0xFC). -/
theorem C176_false :
    let msg : Int → List Byte := fun _ => 0xFC#8 :: lit "berlauf.\r\n"
    ∃ v b, Wsa.error msg 10055 (List.replicate 256 0#8) = .ok (v, b) ∧
      Wsa.read b v = 0xFC#8 :: lit "berlauf.\r" ∧
      ∀ cs : List Char, Wsa.read b v ≠ (cs.flatMap String.utf8EncodeChar).map UInt8.toBitVec := by
  intro msg
  obtain ⟨v, b, e, hr⟩ := C176_return msg 10055 (by decide) (List.replicate 256 0#8) (0xFC#8 :: lit "berlauf.") (by decide) (by decide)
  have e2 : (0xFC#8 :: lit "berlauf.") ++ [13#8] = 0xFC#8 :: lit "berlauf.\r" := by decide
  rw [e2] at hr
  refine ⟨v, b, e, hr, fun cs hc => ?_⟩
  rw [hr] at hc
  cases cs with
  | nil => simp at hc
  | cons c cs =>
    obtain ⟨x, r, hx, hb⟩ := lead c
    rw [List.flatMap_cons, hx] at hc
    simp only [List.cons_append, List.map_cons, List.cons.injEq] at hc
    have : x.toNat = 0xFC := by
      have := congrArg BitVec.toNat hc.1
      simpa using this.symm
    omega

/-- The call writes within the buffer, and there is a terminator after what the view shows and the byte that was dropped. -/
theorem C176_room (msg : Int → List Byte) (err : Int) (buf : List Byte) (hb : buf.length = 256) {v : Nat} {b : List Byte}
    (h : Wsa.error msg err buf = .ok (v, b)) :
    b.length = 256 ∧ v ≤ 255 ∧ (err ≠ 0 → b[v]? = some 0#8 ∨ b[v + 1]? = some 0#8) := by
  have hl : (lit "WinSock Error: " ++ Fmt.intText err).length ≤ 36 := by
    have h1 : (Fmt.intText err).length ≤ 21 := intText_length err
    have h2 : (lit "WinSock Error: ").length = 15 := by decide
    rw [List.length_append]; omega
  have hp : ∀ buf : List Byte, buf.length = 256 → (put buf (lit "WinSock Error: " ++ Fmt.intText err)).length = 256 :=
    fun buf hb => (put_length (by omega)).trans hb
  unfold Wsa.error at h
  split at h
  · cases h
    exact ⟨hb, Nat.zero_le _, fun h => absurd ‹_› h⟩
  · unfold errorCode format at h
    by_cases hm : (msg err).length + 1 ≤ size
    · have hm' : (msg err).length < 256 := hm
      have hq : (put buf (msg err)).length = 256 := (put_length (by omega)).trans hb
      rw [if_pos hm] at h
      simp only at h
      rw [if_neg (by omega)] at h
      split at h
      · split at h
        · cases h
        · cases h
          exact ⟨hp _ hq, by omega, fun _ => .inl (put_end _ _)⟩
      · cases h
        refine ⟨hq, by omega, fun _ => .inr ?_⟩
        rw [show (msg err).length - 1 + 1 = (msg err).length by omega]
        exact put_end _ _
    · rw [if_neg hm] at h
      simp only at h
      rw [if_neg (by unfold size; omega), if_pos (by omega)] at h
      split at h
      · cases h
      · cases h
        exact ⟨hp _ hb, by omega, fun _ => .inl (put_end _ _)⟩

/-- A text, a number for an error without a text, and nothing. -/
example :
    let msg : Int → List Byte := fun e => if e = 10054 then lit "Reset.\r\n" else []
    (Wsa.error msg 10054 (List.replicate 256 0#8)).toOption.map (fun r => Wsa.read r.2 r.1) = some (lit "Reset.\r") ∧
    (Wsa.error msg (-1) (List.replicate 256 0#8)).toOption.map (fun r => Wsa.read r.2 r.1) = some (lit "WinSock Error: -1") ∧
    (Wsa.error msg 0 (List.replicate 256 0#8)).toOption.map (fun r => Wsa.read r.2 r.1) = some [] := by
  decide +kernel

end Rpp.Props
