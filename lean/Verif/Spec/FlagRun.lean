import Verif.Model.Flag

/-!
# Schedules without interruptions
-/

namespace Rpp.Flag

/-- No interruption. -/
def Calm : Ev → Prop
  | .intr _ => False
  | _ => True

end Rpp.Flag
