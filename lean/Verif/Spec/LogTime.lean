import Verif.Model.LogTime

/-!
# Specification of the times in the log
-/

namespace Rpp.LogTime.Spec

open Rpp.LogTime

/-- The calls of thread `t` among the events, each with the time on the clock, which shows `c` at the beginning. -/
def calls (t : Nat) : Nat → List Ev → List (Nat × Nat)
  | _, [] => []
  | c, .tick n :: es => calls t (c + n) es
  | c, .call u m :: es => if u = t then (c, m) :: calls t c es else calls t c es
  | c, _ :: es => calls t c es

/-- The lines of thread `t`. -/
def linesOf (t : Nat) (l : List Line) : List Line := l.filter fun x => x.thread = t

/-- A time of day; a minute can have a leap second. -/
def Valid (t : Tm) : Prop := t.hour < 24 ∧ t.min < 60 ∧ t.sec ≤ 60

/-- The line that a call is to give. -/
def line (z : Zone) (t : Nat) (call : Nat × Nat) : Line := ⟨t, ((z call.1).map strftime).getD [], call.2⟩

end Rpp.LogTime.Spec
