import Verif.Model.Locks

/-!
# Deadlocks
-/

namespace Rpp.Locks

/-- The threads `d` wait for each other: each waits for a mutex that one of them holds. -/
def Dead (s : St) (d : List Nat) : Prop :=
  d ≠ [] ∧ ∀ t ∈ d, ∃ l r u, s.todo t = .acq l :: r ∧ s.lock l = some u ∧ u ∈ d

/-- What a callback of the log may do: take the mutexes of the program for which `inner` holds. -/
def Plain (inner : Nat → Bool) (l : Lock) : Prop := ∃ k, l = .own k ∧ inner k = true

/-- What the program may do with a mutex of its own held: take an inner one, write to the log, allocate. -/
def Inside (inner : Nat → Bool) : Act → Prop
  | .own k => inner k = true
  | .log => True
  | .record _ => True

/-- What a callback of `iterate_timings` may do: the same without allocating. -/
def Quiet (inner : Nat → Bool) : Act → Prop
  | .own k => inner k = true
  | .log => True
  | .record _ => False

/-- The callbacks of the program keep to the rules. -/
def Env.Ordered (e : Env) (inner : Nat → Bool) : Prop :=
  (∀ t, ∀ l ∈ e.onLog t, Plain inner l) ∧ ∀ a ∈ e.onNode, Quiet inner a

/-- A call keeps to the rules: nothing is done while an inner mutex is held. -/
def Allowed (inner : Nat → Bool) : Call → Prop
  | .own k b => (inner k = true → b = []) ∧ ∀ a ∈ b, Inside inner a
  | _ => True

/-- All calls of a schedule keep to the rules. -/
def AllAllowed (inner : Nat → Bool) (es : List Ev) : Prop := ∀ t c, .call t c ∈ es → Allowed inner c

end Rpp.Locks
