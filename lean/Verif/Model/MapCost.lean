import Verif.Model.Map

/-!
# How many slots the operations of `Map` look at (`rpp/map.h`)

The loops of `Model/Map` take the number of turns they may make and end in `hang` when they need more.
Each turn looks at one slot. Here the loops are started as the operations start them, with the number
of turns left open.
-/

namespace Rpp.Map
variable {K V : Type _} [DecidableEq K]

/-- `try_get_` (`rpp/map.h:445-462`) in `turns` turns. -/
def lookIn (H : K → Nat) (m : Map K V) (key : K) (turns : Nat) : Res (Option Nat) := do
  let idx ← shr (H key) m.shift
  findLoop m.cap m.shift m.data (H key) key turns idx 0

/-- `insert_slot` (`rpp/map.h:407-431`) in `turns` turns. -/
def insertIn (H : K → Nat) (m : Map K V) (key : K) (val : V) (turns : Nat) :
    Res (List (Option (Slot K V)) × Nat) :=
  insert_slot turns m.cap m.shift m.data ⟨H key, key, val⟩

/-- The search of `try_erase` (`rpp/map.h:254-270`) in `turns` turns. -/
def eraseIn (H : K → Nat) (m : Map K V) (key : K) (turns : Nat) :
    Res (Option (List (Option (Slot K V)))) := do
  let idx ← shr (H key) m.shift
  eraseLoop m.cap m.shift m.data (H key) key turns idx 0

/-- `fix_up(idx)` (`rpp/map.h:433-443`) in `turns` turns, after the slot has been destroyed
(`rpp/map.h:260-261`). -/
def fixIn (m : Map K V) (idx : Nat) (turns : Nat) : Res (List (Option (Slot K V))) :=
  fixLoop m.cap m.shift turns (m.data.set idx none) idx

end Rpp.Map
