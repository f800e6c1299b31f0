import Verif.Model.Mem

/-!
# Model: the times in the log

`rpp/impl/log.cpp:102-124` (`sys_time`, `sys_time_string`) and `rpp/impl/log.cpp:126-168` (`output`), any number of threads. `sys_time_string` writes to a
buffer of its thread and gives a view of it; `output` reads the clock before it takes the lock and uses the view for the console, then runs the callbacks,
then uses the view again for the file. Of a line only thread, time and message are kept (`Model/LogLine` has the rest). Left out: callbacks that call the
log (`Model/Locks`), the clock being set back, failing output. There is a log file.
-/

namespace Rpp.LogTime

/-- `::tm` as far as `%H:%M:%S` uses it. -/
structure Tm where
  hour : Nat
  min : Nat
  sec : Nat
deriving DecidableEq

/-- What `localtime_r` does: `none` where it fails, because the year does not fit. Called at `rpp/impl/log.cpp:117`. -/
abbrev Zone := Nat → Option Tm

/-- Two digits, as `strftime` writes them. -/
def two (n : Nat) : List Char := [Char.ofNat (48 + n / 10 % 10), Char.ofNat (48 + n % 10)]

/-- `strftime` with `"[%H:%M:%S]"` (`rpp/impl/log.cpp:120`). -/
def strftime (t : Tm) : List Char := '[' :: two t.hour ++ ':' :: two t.min ++ ':' :: two t.sec ++ [']']

/-- What `sys_time_string` leaves in the buffer and shows (`rpp/impl/log.cpp:106-124`). When `localtime_r` fails, `tm_info` has no values. The buffer has 64
bytes; the length is asserted (121). -/
def sysTimeString (z : Zone) (time : Nat) : Res (List Char) :=
  match z time with
  | none => .error .ub
  | some tm => if 0 < (strftime tm).length ∧ (strftime tm).length + 1 ≤ 64 then .ok (strftime tm) else .error .die

/-- Where a thread is: not in `output`; it has read the clock (148) and waits for the lock; it holds the lock and runs the callbacks (158-160). -/
inductive Pc where
  | idle
  | timed (time msg : Nat)
  | inside (time msg : Nat)
deriving DecidableEq

/-- A line that was written: thread, time shown, message. -/
structure Line where
  thread : Nat
  time : List Char
  msg : Nat
deriving DecidableEq

structure State where
  clock : Nat
  lock : Option Nat
  pc : Nat → Pc
  /-- `buffer` of each thread (`rpp/impl/log.cpp:111`). -/
  buffer : Nat → List Char
  out : List Line
  file : List Line

/-- What happens next. -/
inductive Ev where
  /-- Time passes. -/
  | tick (n : Nat)
  /-- Thread `t` calls `output` and reads the clock (147-148). -/
  | call (t msg : Nat)
  /-- Thread `t` gets the lock and writes to the console (150-156). -/
  | enter (t : Nat)
  /-- A callback that runs in thread `t` calls `sys_time_string`: for the time it was given (`none`) or for another one. -/
  | back (t : Nat) (x : Option Nat)
  /-- Thread `t` writes to the file and unlocks (162-168). -/
  | leave (t : Nat)
  /-- Thread `t` calls `sys_time_string` on its own. -/
  | show (t x : Nat)
deriving DecidableEq

/-- Replaces the value at `t`. -/
def put {α : Type} (f : Nat → α) (t : Nat) (a : α) : Nat → α := fun u => if u = t then a else f u

/-- `sys_time_string` in thread `t`. -/
def shown (z : Zone) (s : State) (t x : Nat) : Res State := do
  let b ← sysTimeString z x
  return { s with buffer := put s.buffer t b }

/-- One event of `output` (`rpp/impl/log.cpp:126-168`); `none` if it cannot happen. -/
def step (z : Zone) (s : State) : Ev → Option (Res State)
  | .tick n => some (.ok { s with clock := s.clock + n })
  | .call t m => match s.pc t with
    | .idle => some (.ok { s with pc := put s.pc t (.timed s.clock m) })
    | _ => none
  | .enter t => match s.pc t, s.lock with
    | .timed c m, none => some (do
      let s ← shown z s t c
      return { s with lock := some t, pc := put s.pc t (.inside c m), out := s.out ++ [⟨t, s.buffer t, m⟩] })
    | _, _ => none
  | .back t x => match s.pc t with
    | .inside c _ => some (shown z s t (x.getD c))
    | _ => none
  | .leave t => match s.pc t with
    | .inside _ m => some (.ok { s with lock := none, pc := put s.pc t .idle, file := s.file ++ [⟨t, s.buffer t, m⟩] })
    | _ => none
  | .show t x => match s.pc t with
    | .idle => some (shown z s t x)
    | _ => none

/-- Several events; `none` if one of them cannot happen. -/
def run (z : Zone) (s : State) : List Ev → Option (Res State)
  | [] => some (.ok s)
  | e :: es =>
    match step z s e with
    | some (.ok s) => run z s es
    | some (.error x) => some (.error x)
    | none => none

/-- Nothing was written yet. -/
def init (clock : Nat) : State :=
  { clock := clock, lock := none, pc := fun _ => .idle, buffer := fun _ => [], out := [], file := [] }

end Rpp.LogTime
