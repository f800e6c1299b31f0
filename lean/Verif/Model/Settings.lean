import Verif.Model.Mem

/-!
# Model: priority and affinity of a thread

`Thread::set_priority`, `Thread::set_affinity` on the three systems, and the threads made by the constructor of a pool. Simplified:
the systems are modelled by what their manuals say about these calls, without the calls that only fail if out of memory
(`pthread_attr_init`); permission is a parameter.
-/

namespace Rpp.Settings

/-- `Priority` (`rpp/thread0.h:15`). -/
inductive Level where
  | low | normal | high | critical
deriving DecidableEq

/-- The order of the enumerators. -/
def Level.rank : Level → Nat
  | .low => 0
  | .normal => 1
  | .high => 2
  | .critical => 3

/-- The priority chosen between those of the policy, not on macOS (`rpp/pos/thread_pos.cpp:104-126`); the division of `int` rounds to
zero. -/
def choose (min max : Int) : Level → Int
  | .low => min
  | .normal => min + (max - min).tdiv 2
  | .high => min + (max - min).tdiv 2 + (max - min).tdiv 4
  | .critical => max

/-- Scheduling policies of Linux (sched(7)); the others without real-time priorities behave as `other`. -/
inductive Policy where
  | other | fifo | rr
deriving DecidableEq

/-- `sched_get_priority_min`, `sched_get_priority_max` (sched(7)). -/
def Policy.bounds : Policy → Int × Int
  | .other => (0, 0)
  | .fifo => (1, 99)
  | .rr => (1, 99)

/-- A thread of Linux: its policy and static priority. -/
structure Sched where
  policy : Policy
  prio : Int
deriving DecidableEq

/-- The policy in attributes that were just made (pthread_attr_init(3)): that of no thread in particular. -/
def attrPolicy : Policy := .other

/-- `set_priority` on Linux (`rpp/pos/thread_pos.cpp:77-141`). The bounds are those of the policy in fresh attributes (91-98); the
priority set is checked against those of the policy of the thread (pthread_setschedprio(3): `EINVAL`), and `permit` says whether
the thread may have it (`EPERM`). -/
def linux (permit : Int → Bool) (t : Sched) (p : Level) : Res Sched :=
  let prio := choose attrPolicy.bounds.1 attrPolicy.bounds.2 p
  if prio < t.policy.bounds.1 ∨ t.policy.bounds.2 < prio then .error .die
  else if permit prio then .ok { t with prio := prio }
  else .error .die

/-- `set_priority` on macOS (`rpp/pos/thread_pos.cpp:77-141`), where the bounds are those of the policy of the thread, and the two
middle levels are set only for the bounds 15 and 47. -/
def macos (min max : Int) (permit : Int → Bool) (prio : Int) (p : Level) : Res Int :=
  let new := match p with
    | .low => min
    | .normal => if min = 15 ∧ max = 47 then 37 else prio
    | .high => if min = 15 ∧ max = 47 then 45 else prio
    | .critical => max
  if permit new then .ok new else .error .die

/-- `set_priority` on Windows (`rpp/w32/thread_w32.cpp:49-62`): the constants of winbase.h. If the call fails, there is a warning, the
second component, and the priority stays. -/
def windows (permit : Int → Bool) (prio : Int) (p : Level) : Int × Bool :=
  let value := match p with
    | .low => -2
    | .normal => 0
    | .high => 2
    | .critical => 15
  if permit value then (value, false) else (prio, true)

/-- `set_affinity` on Linux (`rpp/pos/thread_pos.cpp:143-158`). The cores the thread may run on are `allowed`, those that are online
and in the set of processors of its group (cpuset(7)); `hw` is `hardware_threads`, the number of those online (71-75). The set of
1024 bits has the core unless it is beyond them; a set without any allowed core is refused (sched_setaffinity(2): `EINVAL`). The
result is where the thread may run now. -/
def affinityLinux (hw : Nat) (allowed : Nat → Bool) (core : Nat) : Res (Nat → Bool) :=
  if core < hw then
    if core < 1024 ∧ allowed core then .ok (fun c => c = core ∧ allowed c) else .error .die
  else .error .die

/-- `set_affinity` on Windows (`rpp/w32/thread_w32.cpp:64-75`); `now` is where the thread may run before. A mask with a core outside of
those of the process is refused. The second component says whether there is a warning. -/
def affinityWindows (hw : Nat) (allowed : Nat → Bool) (now : Nat → Bool) (core : Nat) : Res ((Nat → Bool) × Bool) :=
  if core < hw then
    if 64 ≤ core then .ok (now, true)
    else if allowed core then .ok (fun c => c = core, false) else .ok (now, true)
  else .error .die

/-- The core of the thread `i` of a pool (`rpp/pool.h:63`). -/
def place (h i : Nat) : Nat :=
  if i < h / 2 then i * 2 else (i - h / 2) * 2 + 1

/-- The threads of a pool on Linux (`rpp/pool.h:54-67`): their number, and that each binds itself to its core. The numbers are far
below 2^64. The result has for each thread where it may run. -/
def pool (hw : Nat) (allowed : Nat → Bool) : Res (List (Nat → Bool)) :=
  let n := hw - 1
  if n ≤ hw ∧ n ≤ 64 then (List.range n).mapM (fun i => affinityLinux hw allowed (place hw i))
  else .error .die

end Rpp.Settings
