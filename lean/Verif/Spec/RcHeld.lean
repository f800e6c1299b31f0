import Verif.Spec.Rc

/-! What the variables of a program keep alive. -/

namespace Rpp
namespace Rc
variable {α : Type}

/-- Some variable leads to the value in block `b`. -/
def Held (s : St α) (b : Nat) : Prop := ∃ v n, Leads s v n (.fld b)

/-- Following one or more handles inside of values leads from `b` to `c`. -/
inductive Chain (s : St α) : Nat → Nat → Prop where
  | one {b c} : s.target (.fld b) = some c → Chain s b c
  | more {b c d} : Chain s b c → s.target (.fld c) = some d → Chain s b d

/-- No value leads to itself. -/
def Acyclic (s : St α) : Prop := ∀ b, ¬ Chain s b b

/-- Operations one after the other. -/
def execAll : St α → List (Op α) → Res (St α)
  | s, [] => .ok s
  | s, op :: r => do execAll (← exec s op) r

end Rc
end Rpp
