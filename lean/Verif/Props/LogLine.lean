import Verif.Proof.LogLine

/-!
# C132: a log line shows the message
-/

namespace Rpp.Props
open Rpp.LogLine
open Rpp.Spec.LogLine (Level line)

/-- **C132, partial.** The line for a message of less than 2^31 bytes without zero byte has the whole message in it. Full statement:
for all messages. Missing because false: `C132_truncated`, `C132_long`. -/
theorem C132_line_partial (level : Level) {time file msg : View} (thread row indent : Nat) (ht : time.Valid) (hf : file.Valid)
    (hm : msg.Valid) (h1 : time.len < 2 ^ 31) (h2 : file.len < 2 ^ 31) (h3 : msg.len < 2 ^ 31) (h4 : 0#8 ∉ time.bytes)
    (h5 : 0#8 ∉ file.bytes) (h6 : 0#8 ∉ msg.bytes) (hi : indent < 2 ^ 29) :
    output level time thread file row indent msg = .ok (line level time.bytes thread file.bytes row indent msg.bytes) := by
  rw [output_line level thread row indent ht hf hm h1 h2 h3 h4 h5 hi, ← Address.takeWhile_zero, Address.takeWhile_stop _ _ h6]

example : output .info (View.of (lit "[12:34:56]")) 7 (View.of (lit "a.cpp")) 42 1 ⟨lit "xhello world", 1, 5⟩ =
    .ok (lit "[12:34:56] [info/7] [a.cpp:42]:     hello" ++ [10#8]) :=
  (C132_line_partial .info 7 42 1 ⟨by decide, by decide⟩ ⟨by decide, by decide⟩ ⟨by decide, by decide⟩ (by decide) (by decide)
    (by decide) (by decide) (by decide) (by decide) (by decide)).trans (by decide +kernel)

/-- **C132 is false**: of a message with a zero byte only what is before it is shown, for all messages. -/
theorem C132_truncated (level : Level) {time file msg : View} (thread row indent : Nat) (ht : time.Valid) (hf : file.Valid)
    (hm : msg.Valid) (h1 : time.len < 2 ^ 31) (h2 : file.len < 2 ^ 31) (h3 : msg.len < 2 ^ 31) (h4 : 0#8 ∉ time.bytes)
    (h5 : 0#8 ∉ file.bytes) (hi : indent < 2 ^ 29) {a b : List Byte} (h : msg.bytes = a ++ 0#8 :: b) (ha : 0#8 ∉ a) :
    output level time thread file row indent msg = .ok (line level time.bytes thread file.bytes row indent a) := by
  rw [output_line level thread row indent ht hf hm h1 h2 h3 h4 h5 hi, h, Address.takeWhile_stop _ _ ha]

/-- `ab`, a zero byte, `cd`. -/
example : output .warn (View.of (lit "t")) 7 (View.of (lit "a.cpp")) 42 0 (View.of (lit "ab" ++ 0#8 :: lit "cd")) =
    .ok (27#8 :: lit "[0;31mt [warn/7] [a.cpp:42]: ab" ++ 27#8 :: lit "[0m" ++ [10#8]) := by decide +kernel

/-- A message of at least 2^31 and less than 2^32 bytes, without zero byte in it or behind it in its block: `printf` reads beyond the
block. -/
theorem C132_long (level : Level) {time file msg : View} (thread row indent : Nat) (ht : time.Valid) (hf : file.Valid)
    (h1 : time.len < 2 ^ 31) (h2 : file.len < 2 ^ 31) (h3 : 2 ^ 31 ≤ msg.len) (h4 : msg.len < 2 ^ 32)
    (hz : 0#8 ∉ msg.mem.drop msg.off) :
    output level time thread file row indent msg = .error .ub := by
  have e : NetWin.toI32 msg.len < 0 := by unfold NetWin.toI32; omega
  have hm : prec msg msg.len = .error .ub := by
    unfold prec
    dsimp only
    rw [if_pos e, Address.text_spec, if_neg hz]
  unfold output
  rw [prec_view ht h1, prec_view hf h2, hm]
  rfl

/-- Such a message. -/
example : let msg := View.of (List.replicate (2 ^ 31) (ch 'x'))
    2 ^ 31 ≤ msg.len ∧ msg.len < 2 ^ 32 ∧ 0#8 ∉ msg.mem.drop msg.off := by
  refine ⟨by simp only [View.of, List.length_replicate]; decide, by simp only [View.of, List.length_replicate]; decide, ?_⟩
  simp only [View.of, List.drop_zero]
  intro h
  exact absurd (List.eq_of_mem_replicate h) (by decide)

end Rpp.Props
