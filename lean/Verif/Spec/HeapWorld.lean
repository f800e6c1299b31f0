import Verif.Spec.Heap

/-!
# Specification: a program using several priority queues

Every variable holds a bag, given as a list up to reordering. The specification is a relation, since
elements that neither precede each other are interchangeable.
-/

namespace Rpp.Spec

/-- Operations of a client program on heap variables. -/
inductive HWOp (α : Type _) where
  /-- `x = Heap(n)`: empty, room for `n` elements. -/
  | fresh (x n : Nat)
  /-- `x = Heap{l0, l1, ...}`. -/
  | init (x : Nat) (l : List α)
  | push (x : Nat) (a : α)
  | pop (x : Nat)
  | top (x : Nat)
  /-- `a = x.top(); x.pop();` returning `a`. -/
  | take (x : Nat)
  | length (x : Nat)
  | clear (x : Nat)
  | reserve (x n : Nat)
  /-- Iterate over all elements (in unspecified order). -/
  | elems (x : Nat)
  /-- `x = move(y)`. -/
  | moveAssign (x y : Nat)
  /-- `x = y.clone()`. -/
  | cloneAssign (x y : Nat)
  /-- The variable goes out of scope and a new empty one takes its name. -/
  | scopeEnd (x : Nat)

variable {α : Type _}

/-- The variables an operation names. -/
def HWOp.names : HWOp α → List Nat
  | .fresh x _ | .init x _ | .push x _ | .pop x | .top x | .take x | .length x | .clear x
  | .reserve x _ | .elems x | .scopeEnd x => [x]
  | .moveAssign x y | .cloneAssign x y => [x, y]

/-- Room an operation asks for. -/
def HWOp.demand : HWOp α → Nat
  | .fresh _ n => n
  | .init _ l => l.length
  | .push _ _ => 1
  | .reserve _ n => n
  | _ => 0

/-- Total demand. -/
def hwDemand (ops : List (HWOp α)) : Nat := (ops.map HWOp.demand).sum

/-- `HWStep lt s op o s'`: with the bags `s` the operation may show `o` and leave the bags `s'`. -/
inductive HWStep (lt : α → α → Bool) : Vars α → HWOp α → Out α → Vars α → Prop
  | fresh {s x n} : HWStep lt s (.fresh x n) .unit (upd s x [])
  | init {s x l} : HWStep lt s (.init x l) .unit (upd s x l)
  | push {s x a} : HWStep lt s (.push x a) .unit (upd s x (a :: s x))
  | pop {s x m b} : IsMin lt (s x) m → (s x).Perm (m :: b) → HWStep lt s (.pop x) .unit (upd s x b)
  | top {s x m} : IsMin lt (s x) m → HWStep lt s (.top x) (.val m) s
  | take {s x m b} : IsMin lt (s x) m → (s x).Perm (m :: b) →
      HWStep lt s (.take x) (.val m) (upd s x b)
  | length {s x} : HWStep lt s (.length x) (.num (s x).length) s
  | clear {s x} : HWStep lt s (.clear x) .unit (upd s x [])
  | reserve {s x n} : HWStep lt s (.reserve x n) .unit s
  | elems {s x l} : l.Perm (s x) → HWStep lt s (.elems x) (.list l) s
  /-- A heap moved into another is left empty; moved into itself it is emptied. -/
  | moveAssign {s x y} :
      HWStep lt s (.moveAssign x y) .unit (upd (upd s x (if x = y then [] else s y)) y [])
  | cloneAssign {s x y} : HWStep lt s (.cloneAssign x y) .unit (upd s x (s y))
  | scopeEnd {s x} : HWStep lt s (.scopeEnd x) .unit (upd s x [])

/-- The operation violates its precondition. -/
inductive HWStop : Vars α → HWOp α → Stop → Prop
  | pop {s x} : s x = [] → HWStop s (.pop x) .popEmpty
  | top {s x} : s x = [] → HWStop s (.top x) .topEmpty
  | take {s x} : s x = [] → HWStop s (.take x) .topEmpty

/-- `HWTrace lt s ops os e`: starting with the bags `s` the program may see `os` and end with the
bags or the violated precondition `e`. After `top` on an empty heap nothing is promised. -/
inductive HWTrace (lt : α → α → Bool) :
    Vars α → List (HWOp α) → List (Out α) → (Stop ⊕ Vars α) → Prop
  | nil (s) : HWTrace lt s [] [] (.inr s)
  | step {s op o s' ops os e} : HWStep lt s op o s' → HWTrace lt s' ops os e →
      HWTrace lt s (op :: ops) (o :: os) e
  | die {s op ops} : HWStop s op .popEmpty → HWTrace lt s (op :: ops) [] (.inl .popEmpty)
  | wrong {s op ops os} : HWStop s op .topEmpty → HWTrace lt s (op :: ops) os (.inl .topEmpty)

end Rpp.Spec
