import Verif.Model.Sched

/-!
# Model: `Thread::Atomic`

`rpp/thread0.h:75-103`, `rpp/pos/thread_pos.cpp:234-254`, `rpp/w32/thread_w32.cpp:120-138`. Every operation is one step, sequentially
consistent (`__ATOMIC_SEQ_CST`, `Interlocked...`). Simplified: `load` on Windows is a plain read of an aligned number of eight
bytes, which is taken to read one of the values stored, although the language calls it a data race. Left out: copying and
assigning an `Atomic`, which is not atomic.
-/

namespace Rpp.Atomic

/-- What a thread can do. -/
inductive Op where
  | load
  | incr
  | decr
  | exchange (v : Int)
  | cas (c v : Int)
  deriving DecidableEq

/-- The number with the low 64 bits of `x`, as the processor adds. -/
def wrap (x : Int) : Int := (x + 2 ^ 63) % 2 ^ 64 - 2 ^ 63

/-- `x` as the value of an expression of type `i64`: undefined if it does not fit. -/
def expr (x : Int) : Res Int := if -2 ^ 63 ≤ x ∧ x < 2 ^ 63 then .ok x else .error .ub

/-- One operation on value `v`: the value afterwards and the result. On POSIX the sum is computed a second time for the result
(`rpp/pos/thread_pos.cpp:239, 243`), which is undefined if it overflows. -/
def apply (win : Bool) (v : Int) : Op → Res (Int × Int)
  | .load => .ok (v, v)
  | .incr => if win then .ok (wrap (v + 1), wrap (v + 1)) else (expr (v + 1)).map fun r => (wrap (v + 1), r)
  | .decr => if win then .ok (wrap (v - 1), wrap (v - 1)) else (expr (v - 1)).map fun r => (wrap (v - 1), r)
  | .exchange x => .ok (x, v)
  | .cas c x => .ok (if v = c then x else v, v)

/-- The value, and what the calls so far returned, in order, to which thread. -/
structure St where
  value : Int
  results : List (Nat × Int)
  deriving DecidableEq

/-- One call by thread `t`. -/
def step (win : Bool) (s : St) (e : Nat × Op) : Res St :=
  (apply win s.value e.2).map fun r => ⟨r.1, s.results ++ [(e.1, r.2)]⟩

/-- Threads that count with a loop of `load` and `compare_and_swap`: what each thread has loaded, and how often each has counted. -/
structure LoopSt where
  value : Int
  loaded : Nat → Option Int
  done : Nat → Nat

/-- The next call of thread `t` in `while(true) { i64 v = a.load(); if(a.compare_and_swap(v, v + 1) == v) break; }`, over and over
(how `rpp/thread0.h:88-92` is used; not code of the library). -/
def loopStep (win : Bool) (s : LoopSt) (t : Nat) : Res LoopSt :=
  match s.loaded t with
  | none => (apply win s.value .load).map fun r => { s with value := r.1, loaded := fun k => if k = t then some r.2 else s.loaded k }
  | some v =>
    (expr (v + 1)).bind fun x => (apply win s.value (.cas v x)).map fun r =>
      { s with value := r.1, loaded := fun k => if k = t then none else s.loaded k,
               done := fun k => if k = t ∧ r.2 = v then s.done k + 1 else s.done k }

end Rpp.Atomic
