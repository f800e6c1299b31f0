import Verif.Model.MapMem
import Verif.Spec.Map

/-!
# Programs that use a map in storage
-/

namespace Rpp.MapMem
open Rpp.Spec
variable {K V : Type} [DecidableEq K]

/-- The number of iterations that `Model/Map` allows every loop. -/
def plus2 (n : Nat) : Nat := n + 2

/-- Run one operation of a program on one map in storage. -/
def step1 (H : K → Nat) (lim : Nat) (d : V) (m : LMap K V) : MapOp K V → S K V (LMap K V × MapOut K V)
  | .insert k v => do
    let (m, i) ← insert plus2 H lim m k v
    return (m, .val (← pureRes (valAt m i)))
  | .tryGet k => do return (m, .opt (← pureRes (try_get plus2 H m k)))
  | .get k => do return (m, .val (← pureRes (get plus2 H m k)))
  | .contains k => do return (m, .bool (← pureRes (contains plus2 H m k)))
  | .assign k v => do return (← assignAt plus2 H m k v, .unit)
  | .tryErase k => do
    let (m, b) ← try_erase plus2 H m k
    return (m, .bool b)
  | .erase k => do return (← erase plus2 H m k, .unit)
  | .getOrInsert k => do
    let (m, v) ← get_or_insert plus2 H lim d m k
    return (m, .val v)
  | .reserve n => do return (← reserve plus2 lim m n, .unit)
  | .clear => do return (← clear m, .unit)
  | .iterate => do return (m, .list (← pureRes (iter plus2 m)))
  | .length => return (m, .num m.len)

/-- Run a program on one map in storage: what it shows, and the map it leaves. -/
def run1 (H : K → Nat) (lim : Nat) (d : V) : LMap K V → List (MapOp K V) → S K V (List (MapOut K V) × LMap K V)
  | m, [] => return ([], m)
  | m, op :: ops => do
    let (m, out) ← step1 H lim d m op
    let (outs, m) ← run1 H lim d m ops
    return (out :: outs, m)

/-- A map's life: constructed empty, used, destroyed. -/
def life (H : K → Nat) (lim : Nat) (d : V) (ops : List (MapOp K V)) : S K V (List (MapOut K V)) := do
  let (outs, m) ← run1 H lim d LMap.nil ops
  let _ ← destroy m
  return outs

end Rpp.MapMem
