import Verif.Model.Region

/-!
# Programs that use a free list
-/

namespace Rpp.FList
open Rpp
variable {α : Type}

/-- What a program can do with a free list; `l` are the objects made and not yet destroyed. `Base` may
return any address that it has not already handed out. -/
inductive Run : FList α → List (Nat × α) → Prop
  | start : Run empty []
  | make {s s' : FList α} {l : List (Nat × α)} {base a : Nat} {v : α} : Run s l → s.mem base = none →
      make s base v = .ok (s', a) → Run s' ((a, v) :: l)
  | destroy {s s' : FList α} {l : List (Nat × α)} {a : Nat} : Run s l → a ∈ l.map Prod.fst →
      destroy s a = .ok s' → Run s' (l.filter (fun p => p.1 ≠ a))
  | clear {s s' : FList α} {l : List (Nat × α)} {fuel : Nat} : Run s l → clear s fuel = .ok s' → Run s' l

end Rpp.FList
