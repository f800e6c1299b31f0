import Verif.Proof.NetWin
import Verif.Model.LogLine

/-! # The text of a log line: lemmas -/

namespace Rpp.LogLine
open Rpp.Spec.LogLine (Level line)

/-- `%.*s` of a view: its bytes up to a zero byte. -/
theorem prec_view {v : View} (hv : v.Valid) (hl : v.len < 2 ^ 31) : prec v v.len = .ok (v.bytes.takeWhile (· != 0#8)) := by
  have e : NetWin.toI32 v.len = v.len := by unfold NetWin.toI32; omega
  have := hv.1
  unfold prec
  dsimp only
  rw [e, if_neg (by omega), Int.toNat_natCast, if_pos (.inr this)]
  rfl

/-- The line for any message, up to a zero byte in it. -/
theorem output_line (level : Level) {time file msg : View} (thread row indent : Nat) (ht : time.Valid) (hf : file.Valid) (hm : msg.Valid)
    (h1 : time.len < 2 ^ 31) (h2 : file.len < 2 ^ 31) (h3 : msg.len < 2 ^ 31) (h4 : 0#8 ∉ time.bytes) (h5 : 0#8 ∉ file.bytes)
    (hi : indent < 2 ^ 29) :
    output level time thread file row indent msg =
      .ok (line level time.bytes thread file.bytes row indent (msg.bytes.takeWhile (· != 0#8))) := by
  have e1 : (NetWin.toI32 (wmul indent indentSize)).natAbs = 4 * indent := by
    unfold NetWin.toI32 wmul indentSize
    omega
  have tz : ∀ l : List Byte, 0#8 ∉ l → l.takeWhile (· != 0#8) = l := fun l h => by
    rw [← Address.takeWhile_zero, Address.takeWhile_stop _ _ h]
  unfold output
  rw [prec_view ht h1, prec_view hf h2, prec_view hm h3, tz _ h4, tz _ h5]
  unfold pad
  rw [e1]
  cases level <;>
    simp only [bind, Except.bind, pure, Except.pure, line, Spec.LogLine.red, Spec.LogLine.plain, Level.name, zu,
      Spec.LogLine.decimal, List.nil_append, List.append_nil, List.append_assoc, List.cons_append]

end Rpp.LogLine
