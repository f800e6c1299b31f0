/-!
# Specification: what a frame of nested scopes means

A call path is the list of the locations of the open scopes, outermost first. A trace says which paths are
entered and for how long.
-/

namespace Rpp.Spec.Prof

/-- A scope is entered or left, at some clock reading. -/
inductive Act (L : Type) where
  | enter (loc : L) (t : BitVec 64)
  | exit (t : BitVec 64)

/-- What happened so far: the open scopes (innermost first) with the times they were entered, the paths
entered, and the spans of the scopes left. -/
structure Trace (L : Type) where
  stack : List (List L × BitVec 64) := []
  enters : List (List L) := []
  spans : List (List L × BitVec 64 × BitVec 64) := []

variable {L : Type}

/-- The path of the innermost open scope. -/
def Trace.path (s : Trace L) : List L :=
  match s.stack with
  | [] => []
  | (p, _) :: _ => p

/-- Leaving a scope when none is open has no effect. -/
def Trace.act (s : Trace L) : Act L → Trace L
  | .enter l t => { s with stack := (s.path ++ [l], t) :: s.stack, enters := s.enters ++ [s.path ++ [l]] }
  | .exit t =>
    match s.stack with
    | [] => s
    | (p, b) :: r => { s with stack := r, spans := s.spans ++ [(p, b, t)] }

def trace (es : List (Act L)) : Trace L := es.foldl Trace.act {}

/-- How often a path was entered. -/
def Trace.count [DecidableEq L] (s : Trace L) (p : List L) : Nat := s.enters.count p

/-- The time spent in it: the sum of its spans (modulo 2^64). -/
def Trace.total [DecidableEq L] (s : Trace L) (p : List L) : BitVec 64 :=
  ((s.spans.filter (fun x => x.1 = p)).map (fun x => x.2.2 - x.2.1)).sum

/-- How often a path one level below was entered. -/
def Trace.below [DecidableEq L] (s : Trace L) (p : List L) : Nat := s.enters.countP (fun q => q ≠ [] ∧ q.dropLast = p)

/-- What is written down about every path: the clock reading its time counts from, the time counted, the calls counted. -/
structure Book (L : Type) where
  since : List L → BitVec 64
  spent : List L → BitVec 64
  calls : List L → BitVec 64

/-- The book at the beginning of a frame. -/
def Book.start (t : BitVec 64) : Book L := ⟨fun _ => t, fun _ => 0, fun _ => 1⟩

/-- Replace the entry for one path. -/
def put [DecidableEq L] {β : Type} (f : List L → β) (p : List L) (x : β) : List L → β := fun q => if q = p then x else f q

/-- How the book is kept. The first entry of a path opens its account. A repeated entry is booked to the account of the
path *above*: one more call, and its clock starts again. Leaving adds the time since the clock of the path was started;
leaving when no scope is open is booked to the frame. -/
def Book.act [DecidableEq L] (s : Trace L) (b : Book L) : Act L → Book L
  | .enter l t =>
    if s.path ++ [l] ∈ s.enters then
      { b with since := put b.since s.path t, calls := put b.calls s.path (b.calls s.path + 1) }
    else ⟨put b.since (s.path ++ [l]) t, put b.spent (s.path ++ [l]) 0, put b.calls (s.path ++ [l]) 1⟩
  | .exit t => { b with spent := put b.spent s.path (b.spent s.path + (t - b.since s.path)) }

/-- The book of a frame. -/
def book [DecidableEq L] : Trace L → Book L → List (Act L) → Book L
  | _, b, [] => b
  | s, b, e :: es => book (s.act e) (b.act s e) es

/-- The path of a node in a tree given by location and parent of every node; node 0 is the root. -/
inductive PathOf (tree : List (L × Nat)) : Nat → List L → Prop where
  | root : 0 < tree.length → PathOf tree 0 []
  | node {i : Nat} {l : L} {q : Nat} {p : List L} :
      i ≠ 0 → tree[i]? = some (l, q) → PathOf tree q p → PathOf tree i (p ++ [l])

end Rpp.Spec.Prof
