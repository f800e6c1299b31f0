import Verif.Model.EventOs

namespace Rpp.EventMac

theorem fill_last (w : Option (Option Nat)) (l : List (Option Nat)) (fd : Option Nat) : fill w (l ++ [fd]) = some fd := by
  induction l generalizing w with
  | nil => rfl
  | cons x l ih => exact ih _

end Rpp.EventMac
