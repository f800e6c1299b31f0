import Verif.Model.Sched

/-!
# `Arc` shared by threads (`rpp/rc.h:140-233`, `rpp/pos/thread_pos.cpp:234-244`)

One `Arc_Data<T>` and any number of threads. A thread owns a number of handles. It can duplicate or drop
a handle it owns, move it to another thread, and use the value through it. Using a handle of another
thread is a data race in the calling program and not modelled. Fewer than `2^63` handles exist, so that
the `i64` counter does not overflow.
-/

namespace Rpp
namespace Arc

/-- Where a thread is in `drop()` (`rpp/rc.h:221-228`): not in it; it saw the count reach zero; it has
destructed the value. -/
inductive Pc where
  | idle | destruct | free
  deriving DecidableEq, Repr

/-- A thread. -/
structure Thr where
  handles : Nat
  pc : Pc
  deriving DecidableEq, Repr

/-- The counter, whether the value is alive and the memory allocated, how often the value was destructed
and the memory freed, and the threads. -/
structure St where
  refs : Int
  alive : Bool
  mem : Bool
  destructs : Nat
  frees : Nat
  thr : List Thr
  deriving DecidableEq, Repr

/-- What thread `t` does next. -/
inductive Ev where
  | dup (t : Nat)
  | drop (t : Nat)
  | give (t u : Nat)
  | use (t : Nat)
  | go (t : Nat)
  deriving DecidableEq, Repr

/-- `Arc::make` by thread 0, with `n` other threads (`rpp/rc.h:156-162`). -/
def St.init (n : Nat) : St := ⟨1, true, true, 0, 0, ⟨1, .idle⟩ :: List.replicate n ⟨0, .idle⟩⟩

/-- One step. -/
def step (s : St) : Ev → Res St
  | .dup t => match s.thr[t]? with
    -- `dup()` (`rpp/rc.h:175-180`): `references.incr()`
    | some ⟨h + 1, .idle⟩ =>
      if s.mem then .ok { s with refs := s.refs + 1, thr := s.thr.set t ⟨h + 2, .idle⟩ } else .error .ub
    | _ => .ok s
  | .drop t => match s.thr[t]? with
    -- `drop()` (`rpp/rc.h:221-228`): `references.decr() == 0`
    | some ⟨h + 1, .idle⟩ =>
      if s.mem then
        .ok { s with
          refs := s.refs - 1
          thr := s.thr.set t ⟨h, if s.refs - 1 = 0 then .destruct else .idle⟩ }
      else .error .ub
    | _ => .ok s
  | .give t u => match s.thr[t]?, s.thr[u]? with
    -- move constructor (`rpp/rc.h:182-185`), by whatever means the handle gets to the other thread
    | some ⟨h + 1, .idle⟩, some r =>
      if t = u then .ok s
      else .ok { s with thr := (s.thr.set t ⟨h, .idle⟩).set u ⟨r.handles + 1, r.pc⟩ }
    | _, _ => .ok s
  | .use t => match s.thr[t]? with
    -- `operator*`, `operator->` (`rpp/rc.h:193-208`)
    | some ⟨_ + 1, .idle⟩ => if s.mem ∧ s.alive then .ok s else .error .ub
    | _ => .ok s
  | .go t => match s.thr[t]? with
    -- `value.destruct()`
    | some ⟨h, .destruct⟩ =>
      if s.mem ∧ s.alive then
        .ok { s with alive := false, destructs := s.destructs + 1, thr := s.thr.set t ⟨h, .free⟩ }
      else .error .ub
    -- `A::destroy<Data>(data_)`
    | some ⟨h, .free⟩ =>
      if s.mem then .ok { s with mem := false, frees := s.frees + 1, thr := s.thr.set t ⟨h, .idle⟩ }
      else .error .ub
    | _ => .ok s

/-- All handles of all threads. -/
def St.handles (s : St) : Nat := (s.thr.map Thr.handles).sum

end Arc
end Rpp
