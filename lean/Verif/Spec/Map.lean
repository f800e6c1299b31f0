import Verif.Model.Mem

/-!
# What a map is

A map is a partial function from keys to values; operations, the outcomes they may have and the
resulting function. Independent of how `rpp::Map` is implemented.
-/

namespace Rpp.Spec

/-- A finite map seen from outside. -/
abbrev FMap (K V : Type _) := K → Option V

namespace FMap
variable {K V : Type _} [DecidableEq K]

def empty : FMap K V := fun _ => none
def put (f : FMap K V) (k : K) (v : V) : FMap K V := fun k' => if k = k' then some v else f k'
def del (f : FMap K V) (k : K) : FMap K V := fun k' => if k = k' then none else f k'

/-- `l` lists every entry of `f` exactly once. -/
def Lists (f : FMap K V) (l : List (K × V)) : Prop :=
  (l.map Prod.fst).Nodup ∧ ∀ k v, (k, v) ∈ l ↔ f k = some v

end FMap

/-- Operations of a program that uses one map. -/
inductive MapOp (K V : Type _) where
  | insert (k : K) (v : V)
  | tryGet (k : K)
  | get (k : K)
  | contains (k : K)
  | assign (k : K) (v : V)
  | tryErase (k : K)
  | erase (k : K)
  | getOrInsert (k : K)
  | reserve (n : Nat)
  | clear
  | iterate
  | length

/-- What an operation shows its caller. -/
inductive MapOut (K V : Type _) where
  | unit
  | val (v : V)
  | opt (v : Option V)
  | bool (b : Bool)
  | list (l : List (K × V))
  | num (n : Nat)
  deriving DecidableEq

namespace MapOp
variable {K V : Type _} [DecidableEq K]

/-- The operation stops the process: `get`, `erase` or `get(..) =` of a key that is not there. -/
def Dies (f : FMap K V) : MapOp K V → Prop
  | get k => f k = none
  | assign k _ => f k = none
  | erase k => f k = none
  | _ => False

/-- The operation may have to allocate. -/
def Allocates : MapOp K V → Prop
  | insert _ _ => True
  | getOrInsert _ => True
  | reserve _ => True
  | _ => False

/-- The map afterwards; `d` is the default value. -/
def next (d : V) (f : FMap K V) : MapOp K V → FMap K V
  | insert k v => f.put k v
  | assign k v => f.put k v
  | tryErase k => f.del k
  | erase k => f.del k
  | getOrInsert k => if (f k).isSome then f else f.put k d
  | clear => FMap.empty
  | _ => f

/-- The outcome is right. `strict`: `length` must be the number of keys, otherwise it may be larger. -/
def OutOK (strict : Bool) (d : V) (f : FMap K V) : MapOp K V → MapOut K V → Prop
  | insert _ v, o => o = .val v
  | tryGet k, o => o = .opt (f k)
  | get k, o => ∃ v, f k = some v ∧ o = .val v
  | contains k, o => o = .bool (f k).isSome
  | assign _ _, o => o = .unit
  | tryErase k, o => o = .bool (f k).isSome
  | erase _, o => o = .unit
  | getOrInsert k, o => o = .val ((f k).getD d)
  | reserve _, o => o = .unit
  | clear, o => o = .unit
  | iterate, o => ∃ l, f.Lists l ∧ o = .list l
  | length, o => ∃ n l, o = .num n ∧ f.Lists l ∧ (if strict then n = l.length else l.length ≤ n)

end MapOp

/-- Slots that the program may need: three for each operation, 32 to begin with, and what it reserves. -/
def mapDemand {K V : Type _} : List (MapOp K V) → Nat
  | [] => 32
  | .reserve n :: ops => mapDemand ops + n + 3
  | _ :: ops => mapDemand ops + 3

/-- `r` is a correct result of running `ops` on a map with contents `f`: every operation shows the
right outcome, the process stops exactly where it must, and the only other way out, if `oom`, is that
memory runs out in an operation that allocates. -/
def MapAllowed {K V : Type _} [DecidableEq K] (oom : Prop) (strict : Bool) (d : V) :
    FMap K V → List (MapOp K V) → Res (List (MapOut K V)) → Prop
  | _, [], r => r = .ok []
  | f, op :: ops, r =>
    (oom ∧ op.Allocates ∧ r = .error .oom) ∨
    (op.Dies f ∧ r = .error .die) ∨
    (¬ op.Dies f ∧ ∃ out, op.OutOK strict d f out ∧
      ∃ r', MapAllowed oom strict d (op.next d f) ops r' ∧ r = r'.map (out :: ·))

/-- The number of insertions since the last `clear`, of present keys too, less the keys erased. -/
def MapOp.tally {K V : Type _} (f : FMap K V) (n : Nat) : MapOp K V → Nat
  | .insert _ _ => n + 1
  | .getOrInsert k => if (f k).isSome then n else n + 1
  | .tryErase k => if (f k).isSome then n - 1 else n
  | .erase k => if (f k).isSome then n - 1 else n
  | .clear => 0
  | _ => n

/-- Every call of `length` shows this number, which is positive while there are keys. -/
def MapLengths {K V : Type _} [DecidableEq K] (d : V) : FMap K V → Nat → List (MapOp K V) → List (MapOut K V) → Prop
  | f, n, op :: ops, out :: outs => (op = .length → out = .num n) ∧ (∀ k, (f k).isSome → 0 < n) ∧
      MapLengths d (op.next d f) (op.tally f n) ops outs
  | _, _, [], [] => True
  | _, _, _, _ => False

/-- No operation of the program inserts a key that is present. -/
def NoReinsert {K V : Type _} [DecidableEq K] (d : V) : FMap K V → List (MapOp K V) → Prop
  | _, [] => True
  | f, op :: ops => (∀ k v, op = .insert k v → f k = none) ∧ NoReinsert d (op.next d f) ops

end Rpp.Spec
