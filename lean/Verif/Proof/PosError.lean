import Verif.Model.PosError
import Verif.Proof.WsaError

/-! Lemmas about the texts of system errors. -/

namespace Rpp.PosErr

theorem cut_short {t : List Byte} (h : t.length < size) : cut t = t := by
  unfold cut size at *
  exact List.take_of_length_le (by omega)

theorem read_buffer (buf t : List Byte) : View.read (Wsa.put buf t) (.buffer t.length) = t := by
  have := Wsa.read_put buf t t.length (Nat.le_refl _)
  simpa [Wsa.read, View.read] using this

theorem unknown_short (s : String) (hs : (lit s).length ≤ 20) (err : Int) : (lit s ++ Fmt.intText err).length < size := by
  have := intText_length err
  rw [List.length_append]
  unfold size
  omega

end Rpp.PosErr
