import Verif.Spec.MapRun

/-!
# Model: changing a hash table while it is traversed

`for(auto& item : map) { … }` where the body uses the map itself. The iterator is the map and a slot number
(`rpp/map.h:340-388`); `end()` is taken once, before the first turn. The body is an arbitrary function from the entry visited to the
operations it performs.
-/

namespace Rpp.Map

open Rpp Rpp.Spec

variable {K V : Type _} [DecidableEq K]

/-- Perform operations one after the other. -/
def perform (H : K → Nat) (lim : Nat) (d : V) : Map K V → List (MapOp K V) → Res (Map K V)
  | m, [] => .ok m
  | m, op :: ops =>
    match step H lim d m op with
    | .ok (m', _) => perform H lim d m' ops
    | .error e => .error e

/-- The turns of the loop (`rpp/map.h:349-362, 373-380`) from slot `c` to slot `last`, the capacity when `end()` was called: the
entries visited and the map at the end. `operator*` does not look whether the slot is in use; reading the entry of an
empty slot is undefined. -/
def walkLoop (H : K → Nat) (lim : Nat) (d : V) (body : K → V → List (MapOp K V)) (last : Nat) :
    Nat → Map K V → Nat → Res (List (K × V) × Map K V)
  | 0, _, _ => .error .hang
  | fuel + 1, m, c =>
    if c = last then .ok ([], m)
    else
      match m.data[c]? with
      | some (some s) =>
        match perform H lim d m (body s.key s.val) with
        | .error e => .error e
        | .ok m' =>
          match skip m' m'.cap (c + 1) with
          | .error e => .error e
          | .ok c' =>
            match walkLoop H lim d body last fuel m' c' with
            | .error e => .error e
            | .ok (l, m'') => .ok ((s.key, s.val) :: l, m'')
      | _ => .error .ub

/-- The whole loop (`rpp/map.h:393-404`). -/
def walk (H : K → Nat) (lim : Nat) (d : V) (body : K → V → List (MapOp K V)) (fuel : Nat) (m : Map K V) :
    Res (List (K × V) × Map K V) :=
  match skip m m.cap 0 with
  | .error e => .error e
  | .ok c => walkLoop H lim d body m.cap fuel m c

end Rpp.Map
