import Verif.Spec.Seq
import Verif.Spec.MapRun
import Verif.Spec.Queue
import Verif.Spec.Heap

/-!
# Specification: programs that stay within the room reserved ahead
-/

namespace Rpp.Spec

variable {α : Type}

/-- Operations that work on the elements of `x` and ask neither for a new vector nor for more capacity; and all operations on other
vectors. -/
def VecOp.within (x : Nat) (op : VecOp α) : Prop :=
  x ∉ op.targets ∨
  match op with
  | .push .. | .pushOwn .. | .pop _ | .clear _ | .resize .. | .extend .. | .set .. | .get .. | .front _ | .back _ | .length _ | .elems _ => True
  | _ => False

/-- Started with the lists `s`, the program never has more than `n` elements in `x`. -/
def Stays (d : α) (x n : Nat) : Vars α → List (VecOp α) → Prop
  | _, [] => True
  | s, op :: ops => op.within x ∧ ∀ o s', vecStep d s op = some (o, s') → (s' x).length ≤ n ∧ Stays d x n s' ops

/-- The same for queues. -/
def QOp.within (x : Nat) (op : QOp α) : Prop :=
  x ∉ op.targets ∨
  match op with
  | .push .. | .pushOwn .. | .pop _ | .clear _ | .set .. | .eraseFirst .. | .get .. | .front _ | .back _ | .penultimate _ | .length _ | .elems _ => True
  | _ => False

/-- Started with the lists `s`, the program never has more than `n` elements in the queue `x`. -/
def QStays [DecidableEq α] (x n : Nat) : Vars α → List (QOp α) → Prop
  | _, [] => True
  | s, op :: ops => op.within x ∧ ∀ o s', qStep s op = some (o, s') → (s' x).length ≤ n ∧ QStays x n s' ops

/-- The same for heaps, of which only the number of elements matters: started with `k` elements, never more than `n`. -/
def HStays (n : Nat) : Nat → List (HOp α) → Prop
  | _, [] => True
  | k, .push _ :: ops => k + 1 ≤ n ∧ HStays n (k + 1) ops
  | k, .pop :: ops | k, .take :: ops => HStays n (k - 1) ops
  | _, .clear :: ops => HStays n 0 ops
  | k, .top :: ops | k, .length :: ops | k, .elems :: ops => HStays n k ops
  | _, .reserve _ :: _ | _, .reclone :: _ => False

end Rpp.Spec

namespace Rpp.Map

/-- Insert several entries one after the other. -/
def insertAll {K V : Type _} [DecidableEq K] (H : K → Nat) (lim : Nat) : Map K V → List (K × V) → Res (Map K V)
  | m, [] => .ok m
  | m, (k, v) :: l => do
    let (m, _) ← insert H lim m k v
    insertAll H lim m l

end Rpp.Map
