import Verif.Model.Watcher

/-!
# Specification of write times and file watchers on Windows
-/

namespace Rpp.Watcher.Spec

open Rpp.Watcher

/-- The number of 100 ns units since 1601. -/
def ticks (t : FILETIME) : Nat := t.high.toNat * 2 ^ 32 + t.low.toNat

/-- The time stamp of a moment, in nanoseconds since 1601. -/
def stamp (ns : Nat) : FILETIME := { low := BitVec.ofNat 32 (ns / 100), high := BitVec.ofNat 32 (ns / 100 / 2 ^ 32) }

/-- The memory of `w` shows the bytes `name` at `s`. -/
def Shows (w : World) (s : Text) (name : List UInt8) : Prop :=
  name.length = s.len ∧ ∀ i, i < s.len → w.mem (s.ptr + i) = name[i]?

/-- The time of the file with the name that is shown, if there is one. -/
def Sees (w : World) (s : Text) (o : Option Int) : Prop :=
  ∃ name, Shows w s name ∧ o = (w.disk name).map fun t => (ticks t : Int)

end Rpp.Watcher.Spec
