import Verif.Model.Vec

/-!
# What it means that a `Vec` in memory holds a list
-/

namespace Rpp
variable {α : Type _}

/-- Block numbers from `next` on are unused. -/
def Heap.WF (h : Heap α) : Prop := ∀ j, h.next ≤ j → h.blk j = none

namespace Vec

/-- `v` holds exactly the elements `l`, in its own block, with raw storage behind them. -/
def Rep (T : Traits) (h : Heap α) (v : Vec) (l : List α) : Prop :=
  v.len = l.length ∧
  match v.data with
  | none => v.cap = 0 ∧ l = []
  | some id => id < h.next ∧ 0 < v.cap ∧ ∃ tail : Buf α, h.blk id = some (l.map some ++ tail) ∧
      l.length + tail.length = v.cap ∧ (T.triv = true ∨ ∀ c ∈ tail, c = none)

end Vec

end Rpp
