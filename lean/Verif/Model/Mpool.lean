import Verif.Model.Region
import Verif.Model.Sched

/-!
# `Mpool`: object pools shared by all threads (`rpp/alloc1.h:26-89`)

`detail::Pool<N>` keeps the free blocks of size `N` in a `Free_List` (`rpp/alloc0.h:118-184`) guarded by a
mutex. The state is that of the free list, where a block in use is an object or raw memory, the mutex, and
where each thread is in `make` or `destroy`. The steps inside the lock are separate, so that the theorems
depend on the lock being held around them.

Simplified: a value is a number; destructors have no effect on other memory; `Base` (`Mallocator`) never
fails and returns an address not in use. Locking and unlocking are one step each (`pthread_mutex_lock`).
-/

namespace Rpp
namespace Mp

/-- Where a thread is. -/
inductive Pc where
  | idle
  /-- `make`: about to lock (`rpp/alloc1.h:36`). -/
  | mkLock (v : Nat)
  /-- `make`, locked: about to look at the list (`rpp/alloc0.h:162`). -/
  | mkHead (v : Nat)
  /-- `make`, locked: about to unlink `a` (`rpp/alloc0.h:164`). -/
  | mkNext (v a : Nat)
  /-- `make`, locked: about to make a `Block` of `a` (`rpp/alloc0.h:142`) and unlock (`rpp/alloc1.h:38`). -/
  | mkUnlock (v a : Nat)
  /-- `make`: about to construct the object in `a` (`rpp/alloc1.h:39`). -/
  | mkNew (v a : Nat)
  /-- `destroy`: about to run the destructor (`rpp/alloc1.h:48`). -/
  | dsDtor (a : Nat)
  /-- `destroy`: about to lock (`rpp/alloc1.h:51`). -/
  | dsLock (a : Nat)
  /-- `destroy`, locked: about to write the link (`rpp/alloc0.h:173`). -/
  | dsLink (a : Nat)
  /-- `destroy`, locked: about to set the head (`rpp/alloc0.h:174`). -/
  | dsHead (a : Nat)
  /-- `destroy`: about to unlock (`rpp/alloc1.h:53`). -/
  | dsUnlock
  deriving DecidableEq, Repr

/-- The pool: `list` is the head of the free list (`rpp/alloc0.h:183`), `mem` the memory obtained from `Base`
(an object, raw memory `obj none`, or the link of a free node), `holder` the mutex. `objs` are the objects
whose pointers `make` has returned and for which `destroy` has not been called, with the values they were
made with. -/
structure St where
  list : Option Nat
  mem : Nat → Option (FCell (Option Nat))
  holder : Option Nat
  thr : List Pc
  objs : List (Nat × Nat)

/-- An empty pool and `n` threads. -/
def St.init (n : Nat) : St := ⟨none, fun _ => none, none, List.replicate n .idle, []⟩

/-- What happens next: a thread calls `make` for value `v`, a thread calls `destroy` for the object at `a`
(any thread may), or a thread does its next step; `base` is the address `Base::alloc` returns if called. -/
inductive Ev where
  | make (t v : Nat)
  | destroy (t a : Nat)
  | go (t base : Nat)
  deriving DecidableEq, Repr

/-- Thread `t` goes on at `p`. -/
def St.at (s : St) (t : Nat) (p : Pc) : St := { s with thr := s.thr.set t p }

/-- The next step of thread `t` (`rpp/alloc1.h:30-54`, `rpp/alloc0.h:141-150,161-175`). -/
def go (s : St) (t base : Nat) : Pc → Res St
  | .idle => .ok s
  | .mkLock v => match s.holder with
    | some _ => .ok s
    | none => .ok ({ s with holder := some t }.at t (.mkHead v))
  | .mkHead v => match s.list with
    | some a => .ok (s.at t (.mkNext v a))
    | none => match s.mem base with
      | some _ => .ok s
      | none => .ok ({ s with mem := FList.set s.mem base (some (.obj none)) }.at t (.mkUnlock v base))
  | .mkNext v a => match s.mem a with
    | some (.node next) => .ok ({ s with list := next }.at t (.mkUnlock v a))
    | _ => .error .ub
  | .mkUnlock v a => match s.mem a with
    | some _ =>
      .ok ({ s with mem := FList.set s.mem a (some (.obj none)), holder := none }.at t (.mkNew v a))
    | none => .error .ub
  | .mkNew v a => match s.mem a with
    | some (.obj none) =>
      .ok ({ s with mem := FList.set s.mem a (some (.obj (some v))), objs := (a, v) :: s.objs }.at t .idle)
    | _ => .error .ub
  | .dsDtor a => match s.mem a with
    | some (.obj (some _)) =>
      .ok ({ s with mem := FList.set s.mem a (some (.obj none)) }.at t (.dsLock a))
    | _ => .error .ub
  | .dsLock a => match s.holder with
    | some _ => .ok s
    | none => .ok ({ s with holder := some t }.at t (.dsLink a))
  | .dsLink a => match s.mem a with
    | some (.obj none) =>
      .ok ({ s with mem := FList.set s.mem a (some (.node s.list)) }.at t (.dsHead a))
    | _ => .error .ub
  | .dsHead a => .ok ({ s with list := some a }.at t .dsUnlock)
  | .dsUnlock => .ok ({ s with holder := none }.at t .idle)

/-- One event. A program calls `destroy` once for a pointer it got from `make`; calls by a thread that is
busy do not happen. -/
def step (s : St) : Ev → Res St
  | .make t v => match s.thr[t]? with
    | some .idle => .ok (s.at t (.mkLock v))
    | _ => .ok s
  | .destroy t a => match s.thr[t]? with
    | some .idle =>
      if s.objs.any (fun p => p.1 == a) then
        .ok ({ s with objs := s.objs.filter (fun p => p.1 != a) }.at t (.dsDtor a))
      else .ok s
    | _ => .ok s
  | .go t base => match s.thr[t]? with
    | some p => go s t base p
    | none => .ok s

/-- The free list as seen by the program's finalizer, which runs `clear` (`rpp/alloc1.h:63-69`). -/
def St.toList (s : St) : FList (Option Nat) := ⟨s.list, s.mem, []⟩

end Mp
end Rpp
