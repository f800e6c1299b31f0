import Verif.Model.Map
import Verif.Spec.Map

/-!
# Programs that use a hash table
-/

namespace Rpp.Map
open Rpp Rpp.Spec
variable {K V : Type _} [DecidableEq K]

/-- The slots in use, in table order. -/
def slots (tab : List (Option (Slot K V))) : List (Slot K V) := tab.filterMap (fun o => o)

/-- Run one operation of the model. -/
def step (H : K → Nat) (lim : Nat) (d : V) (m : Map K V) : MapOp K V → Res (Map K V × MapOut K V)
  | .insert k v => do
    let (m, i) ← insert H lim m k v
    return (m, .val (← m.valAt i))
  | .tryGet k => do return (m, .opt (← try_get H m k))
  | .get k => do return (m, .val (← get H m k))
  | .contains k => do return (m, .bool (← contains H m k))
  | .assign k v => do return (← assign H m k v, .unit)
  | .tryErase k => do
    let (m, b) ← try_erase H m k
    return (m, .bool b)
  | .erase k => do return (← erase H m k, .unit)
  | .getOrInsert k => do
    let (m, v) ← get_or_insert H lim d m k
    return (m, .val v)
  | .reserve n => do return (← reserve lim m n, .unit)
  | .clear => .ok (m.clear, .unit)
  | .iterate => do return (m, .list (← iter m))
  | .length => .ok (m, .num m.len)

/-- Run a program. -/
def run (H : K → Nat) (lim : Nat) (d : V) : Map K V → List (MapOp K V) → Res (List (MapOut K V))
  | _, [] => .ok []
  | m, op :: ops => do
    let (m, out) ← step H lim d m op
    return out :: (← run H lim d m ops)

/-- Maps a program can make: from the default constructor or `Map(n)`, `n ≠ 1`, by operations other
than `reserve(1)`. -/
inductive Reachable (H : K → Nat) (lim : Nat) (d : V) : Map K V → Prop
  | nil : Reachable H lim d Map.nil
  | make {n m} : n < 2 ^ 64 → n ≠ 1 → withCapacity lim n = .ok m → Reachable H lim d m
  | step {m op m' out} : Reachable H lim d m → (∀ n, op = .reserve n → n ≠ 1) →
      step H lim d m op = .ok (m', out) → Reachable H lim d m'

end Rpp.Map
