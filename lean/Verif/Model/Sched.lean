import Verif.Model.Mem

/-!
# Interleavings

Concurrent code is modelled as a state and a set of events, each one an atomic step of one thread (one
atomic instruction, one system call, or a stretch of code that touches only what is private to the thread
or protected by a lock it holds). A schedule is any list of events. An event that is not possible in a
state (the thread is somewhere else, or has to wait) leaves the state as it is, so that a statement about
all schedules is a statement about all interleavings. The atomic operations of `rpp/thread0.h` are
sequentially consistent (`rpp/pos/thread_pos.cpp:234-254`).
-/

namespace Rpp

/-- Run a schedule. -/
def runAll {σ ε : Type} (step : σ → ε → Res σ) : σ → List ε → Res σ
  | s, [] => .ok s
  | s, e :: r => match step s e with
    | .ok s' => runAll step s' r
    | .error x => .error x

end Rpp
