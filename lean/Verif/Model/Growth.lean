import Verif.Model.Queue
import Verif.Model.Heap
import Verif.Model.Map

/-!
# Model: one container in use

Programs that add elements to one container and take them away, over the models of the containers (`Verif.Model.Vec`, `Queue`, `Heap`,
`Map`). A `Stack` is a `Vec` (`rpp/stack.h:59-84`).
-/

namespace Rpp.Growth

/-- Adding an element, taking one away, taking all away. -/
inductive Op (α : Type) where
  | push (x : α)
  | pop
  | clear

/-- Whether it adds an element. -/
def Op.adds {α : Type} : Op α → Bool
  | .push _ => true
  | _ => false

/-- `Vec::push`, `pop`, `clear` (`rpp/vec.h:106-113, 174-198`). -/
def vec {α : Type} (T : Traits) : Vec × Heap α → Op α → Res (Vec × Heap α)
  | (v, h), .push x => Vec.push T v x h
  | (v, h), .pop => Vec.pop T v h
  | (v, h), .clear => Vec.clear T v h

/-- `Vec::extend` (`rpp/vec.h:138-142`) by a number of elements `d`. -/
def vecExtend {α : Type} (T : Traits) (d : α) : Vec × Heap α → Nat → Res (Vec × Heap α)
  | (v, h), k => Vec.extend T d v k h

/-- `Queue::push`, `pop`, `clear` (`rpp/queue.h:144-186`). -/
def queue {α : Type} (T : Traits) : Queue × Heap α → Op α → Res (Queue × Heap α)
  | (q, h), .push x => Queue.push T q x h
  | (q, h), .pop => Queue.pop T q h
  | (q, h), .clear => Queue.clear T q h

/-- Adding to a heap and taking the first element. -/
inductive HeapOp (α : Type) where
  | push (x : α)
  | pop

/-- Whether it adds an element. -/
def HeapOp.adds {α : Type} : HeapOp α → Bool
  | .push _ => true
  | _ => false

/-- `Heap::push` and `pop` (`rpp/heap.h:139-174`). -/
def heap {α : Type} (T : Traits) (lt : α → α → Bool) : Vec × Heap α → HeapOp α → Res (Vec × Heap α)
  | (v, h), .push x => PHeap.push T lt v x h
  | (v, h), .pop => PHeap.pop T lt v h

/-- Inserting a key with a value, erasing a key, clearing. -/
inductive MOp (K V : Type) where
  | insert (k : K) (v : V)
  | erase (k : K)
  | clear

/-- Whether it adds an element. -/
def MOp.adds {K V : Type} : MOp K V → Bool
  | .insert _ _ => true
  | _ => false

/-- `Map::insert`, `try_erase`, `clear` (`rpp/map.h:179-188, 218-224, 252-271`). -/
def map {K V : Type} [DecidableEq K] (H : K → Nat) (lim : Nat) (m : Map K V) : MOp K V → Res (Map K V)
  | .insert k v => (Map.insert H lim m k v).map (·.1)
  | .erase k => (Map.try_erase H m k).map (·.1)
  | .clear => .ok m.clear

end Rpp.Growth
