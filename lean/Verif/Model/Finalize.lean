import Verif.Model.Mem

/-!
# Model: finalizers and the report at the end of the program

`Profile::finalizer` and `Profile::finalize` (`rpp/impl/profile.cpp:201-230`) in one thread, all others having ended. A mutex is
locked or not; locking one the thread holds waits forever (`rpp/pos/thread_pos.cpp:197-216`: not recursive). Simplified: finalizers
and log callbacks are lists of what they do with the profiler; the table of allocators is a list with the names in the order of
their first use, of which only the current size is kept, and of the lines only their kind. The totals at the end
(`rpp/impl/profile.cpp:235-254`) are in `Verif.Model.Stats`.
-/

namespace Rpp.Fin

variable {N : Type} [DecidableEq N]

/-- What a finalizer or callback does: register a finalizer (by its number), or allocate (`0 < k`) or free (`k < 0`) under a name,
both of which is `Profile::alloc` (`rpp/impl/profile.cpp:160-199`). -/
inductive Act (N : Type) where
  | reg (f : Nat)
  | use (n : N) (k : Int)
deriving DecidableEq

/-- A line of the report: the statistics of a name (`rpp/impl/profile.cpp:219-224`, six lines) or the warning about it (226). -/
inductive Line (N : Type) where
  | stats (n : N)
  | unbalanced (n : N) (size : Int)
deriving DecidableEq

/-- The static members of `Profile` (`rpp/profile.h:160-166`). `ran` are the finalizers that were called, `lines` what was logged. -/
structure St (N : Type) where
  fins : List Nat := []
  finLock : Bool := false
  allocLock : Bool := false
  allocs : List (N × Int) := []
  ran : List Nat := []
  lines : List (Line N) := []
deriving DecidableEq

/-- The size of a name after `k` more bytes, a new name being added (`rpp/impl/profile.cpp:164-191`). -/
def bump (n : N) (k : Int) : List (N × Int) → List (N × Int)
  | [] => [(n, k)]
  | (m, z) :: r => if m = n then (m, z + k) :: r else (m, z) :: bump n k r

/-- One action. `Profile::finalizer` (`rpp/impl/profile.cpp:201-204`) and `Profile::alloc` lock. -/
def act (s : St N) : Act N → Res (St N)
  | .reg f => if s.finLock then .error .hang else .ok { s with fins := s.fins ++ [f] }
  | .use n k => if s.allocLock then .error .hang else .ok { s with allocs := bump n k s.allocs }

/-- All actions of a body. -/
def acts : St N → List (Act N) → Res (St N)
  | s, [] => .ok s
  | s, a :: as => match act s a with
    | .error e => .error e
    | .ok s => acts s as

/-- The loop over the finalizers (`rpp/impl/profile.cpp:210-212`). -/
def call (body : Nat → List (Act N)) : St N → List Nat → Res (St N)
  | s, [] => .ok s
  | s, f :: fs => match acts { s with ran := s.ran ++ [f] } (body f) with
    | .error e => .error e
    | .ok s => call body s fs

/-- Log a line: the callbacks are called in turn (`rpp/impl/log.cpp:159-163`). -/
def say (cbs : List (List (Act N))) (s : St N) (l : Line N) : Res (St N) := acts { s with lines := s.lines ++ [l] } cbs.flatten

/-- The loop over the allocators (`rpp/impl/profile.cpp:218-228`). -/
def report (cbs : List (List (Act N))) : St N → List (N × Int) → Res (St N)
  | s, [] => .ok s
  | s, (n, z) :: r => match say cbs s (.stats n) with
    | .error e => .error e
    | .ok s => match (if z ≠ 0 then say cbs s (.unbalanced n z) else .ok s) with
      | .error e => .error e
      | .ok s => report cbs s r

/-- `Profile::finalize` (`rpp/impl/profile.cpp:206-230`). `finalizers.~Vec()` and `allocs.~Map()` leave them empty. -/
def finalize (body : Nat → List (Act N)) (cbs : List (List (Act N))) (s : St N) : Res (St N) :=
  if s.finLock then .error .hang
  else match call body { s with finLock := true } s.fins with
    | .error e => .error e
    | .ok s =>
      let s := { s with fins := [], finLock := false }
      if s.allocLock then .error .hang
      else match report cbs { s with allocLock := true } s.allocs with
        | .error e => .error e
        | .ok s => .ok { s with allocs := [], allocLock := false }

/-- A program: any actions from outside, in order. -/
def run (as : List (Act N)) : Res (St N) := acts {} as

end Rpp.Fin
