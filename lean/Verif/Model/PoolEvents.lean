import Verif.Model.Sched
import Verif.Model.Word

/-!
# `Async::Pool`: the event thread and the placement of workers (`rpp/pool.h:54-70, 136-188`)

Linux (`rpp/pos/async_pos.cpp`). An event is its file descriptor, `none` for the descriptor `-1` of a moved-from
event; descriptor `0` is the one made by the pool's constructor to wake up the event thread. A job is a
number. `enqueue_event` and the body of the loop of `do_events` run under `events_mut`, so each is one step;
`Event::wait_any` runs outside of it and is a step of its own. Giving a job to a worker queue (the model of
which is `Verif.Model.Pool`) is recorded in `sched`, together with the descriptor epoll reported. The counter of
the eventfd is taken not to reach `2^64 - 1`, and epoll is taken not to fail on valid descriptors.
-/

namespace Rpp
namespace PoolEv

/-- Where the event thread is: about to call `wait_any`; it has returned index `i`, for descriptor `fd`; returned
because of shutdown. -/
inductive Phase where
  | wait
  | got (i fd : Nat)
  | done
  deriving DecidableEq, Repr

/-- `pend`, `jobs` and `add` are `pending_events`, `pending_event_jobs` and `events_to_enqueue`; `wake` is the
counter of the wake-up event, `ready` are the other descriptors that are ready. The rest are records:
what was registered, which descriptors became ready, which were closed, and which jobs were scheduled. -/
structure St where
  pend : List (Option Nat)
  jobs : List Nat
  add : List (Nat × Nat)
  wake : Nat
  ready : List Nat
  phase : Phase
  shutdown : Bool
  registered : List (Nat × Nat)
  fires : List Nat
  closed : List Nat
  sched : List (Nat × Nat)
  deriving DecidableEq, Repr

/-- What happens next: `enqueue_event(fd, job)` is called; descriptor `fd` becomes ready; `wait_any` returns because
of `fd`; the event thread goes on with what it returned; the destructor signals (`rpp/pool.h:72-83`). -/
inductive Ev where
  | register (fd job : Nat)
  | fire (fd : Nat)
  | wait (fd : Nat)
  | body
  | shutdown
  deriving DecidableEq, Repr

/-- After the constructor (`rpp/pool.h:68`). -/
def St.init : St := ⟨[some 0], [], [], 0, [], .wait, false, [], [], [], []⟩

/-- The descriptors the pool owns. -/
def St.open (s : St) : List Nat := s.pend.filterMap id ++ s.add.map Prod.fst

/-- `swap(l[i], l[j])` for events (`rpp/utility.h:630-642`), by one move construction and two move assignments
(`rpp/pos/async_pos.cpp:19-33`), with the descriptors that are closed. -/
def swapEv (l : List (Option Nat)) (i j : Nat) : List (Option Nat) × List Nat :=
  -- `T tmp = move(a)`
  let tmp := (l[i]?).join
  let l := l.set i none
  -- `a = move(b)`
  let c1 := ((l[i]?).join).toList
  let x := (l[j]?).join
  let l := l.set i x
  let l := l.set j none
  -- `b = move(tmp)`
  let c2 := ((l[j]?).join).toList
  (l.set j tmp, c1 ++ c2)

/-- `swap(l[i], l[j])` for handles, which are plain pointers. -/
def swapJob (l : List Nat) (i j : Nat) : List Nat :=
  match l[i]?, l[j]? with
  | some x, some y => (l.set i y).set j x
  | _, _ => l

/-- The swap of event `k + 1` and job `k` with the last ones (`rpp/pool.h:178-181`), with the descriptors that
are closed. -/
def toBack (pend : List (Option Nat)) (jobs : List Nat) (k : Nat) : List (Option Nat) × List Nat × List Nat :=
  if 2 < pend.length then
    ((swapEv pend (k + 1) (pend.length - 1)).1, (swapEv pend (k + 1) (pend.length - 1)).2,
      swapJob jobs k (jobs.length - 1))
  else (pend, [], jobs)

/-- One step. -/
def step (s : St) : Ev → Res St
  | .register fd job =>
    -- the caller owns the descriptor: it is not one the pool has
    if fd ∈ s.open then .ok s
    else .ok { s with add := s.add ++ [(fd, job)], wake := s.wake + 1, registered := s.registered ++ [(fd, job)] }
  | .fire fd =>
    if fd ∈ s.open ∧ fd ≠ 0 then
      .ok { s with ready := if fd ∈ s.ready then s.ready else s.ready ++ [fd], fires := s.fires ++ [fd] }
    else .ok s
  | .wait fd =>
    -- `Event::wait_any` (`rpp/pos/async_pos.cpp:68-98`)
    if s.phase ≠ .wait then .ok s
    -- `epoll_ctl` fails for descriptor -1 and for one that is already there
    else if none ∈ s.pend ∨ ¬ s.pend.Nodup then .error .die
    else if some fd ∈ s.pend ∧ (if fd = 0 then 0 < s.wake else fd ∈ s.ready) then
      .ok { s with phase := .got (s.pend.idxOf (some fd)) fd }
    else .ok s
  | .body => match s.phase with
    | .got 0 _ =>
      if s.shutdown then .ok { s with phase := .done }
      -- `reset` of an event that is not set fails with `EAGAIN` (`rpp/pos/async_pos.cpp:56-61`)
      else if s.wake = 0 then .error .die
      else .ok { s with
        pend := s.pend ++ s.add.map (fun p => some p.1)
        jobs := s.jobs ++ s.add.map Prod.snd
        add := []
        wake := 0
        phase := .wait }
    | .got (k + 1) fd =>
      match s.jobs[k]? with
      | none => .error .die
      | some job =>
        let r := toBack s.pend s.jobs k
        -- `pop` asserts that the vector is not empty; the destructor of the event closes the descriptor
        if r.1 = [] ∨ r.2.2 = [] then .error .die
        else
          let c := r.2.1 ++ (r.1.getLast?.join).toList
          .ok { s with
            pend := r.1.dropLast
            jobs := r.2.2.dropLast
            closed := s.closed ++ c
            ready := s.ready.filter (fun x => x ∉ c)
            sched := s.sched ++ [(fd, job)]
            phase := .wait }
    | _ => .ok s
  | .shutdown => .ok { s with shutdown := true, wake := s.wake + 1 }

/-- The core worker `i` is pinned to, of `h` (`rpp/pool.h:63`). -/
def core (h i : Nat) : Nat :=
  if i < h / 2 then wmul i 2 else wadd (wmul (wsub i (h / 2)) 2) 1

/-- The cores the workers of a pool are pinned to on a machine with `h` hardware threads, in the order of the
workers (`rpp/pool.h:54-67`, `rpp/pos/thread_pos.cpp:143-158`): the constructor asserts that there are not
too many, and `set_affinity` that the core exists. -/
def placement (h : Nat) : Res (List Nat) :=
  let n := wsub h 1
  if n ≤ h ∧ n ≤ 64 then
    let cs := (List.range n).map (core h)
    if ∀ c ∈ cs, c < h then .ok cs else .error .die
  else .error .die

end PoolEv
end Rpp
