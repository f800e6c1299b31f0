import Verif.Model.Region

/-!
# Model: how a failed check is reported

`assert` and `die` log a message before they end the program (`rpp/log.h:22-31`), and `Log::log` formats the message in a
region of the calling thread (`rpp/log.h:90-93`). The region can itself fail a check: 128 scopes are the most there can be
(`rpp/impl/alloc.cpp:67`), and memory can run out (`rpp/impl/alloc.cpp:103`). That check is reported in the same way. The
lock of `Log::output` and what subscribers do are left out (C78).
-/

namespace Rpp.Reg

/-- The text of a message: `user len` is any text of `len` bytes, `depth` the one of the assertion in `begin`
(`rpp/impl/alloc.cpp:67`) and `ret` the one in `sys_alloc` (`rpp/impl/alloc.cpp:103`). -/
inductive Msg
  | user (len : Nat)
  | depth
  | ret
  deriving DecidableEq, Repr

/-- The lengths of `Assert: current_region < MAX_REGION_DEPTH` and of `Assert: ret`. -/
def Msg.len : Msg → Nat
  | user n => n
  | depth => 41
  | ret => 11

/-- The brand of the scope in `Log::log`: one place in the source, so one brand (`rpp/log.h:92`, `rpp/alloc0.h:108-113`).
The value is arbitrary. -/
def LOG : Nat := 1

/-- `Log::log` for a message of a failed check (`rpp/log.h:22-31, 90-93`): it opens a scope, takes one block for the text
(`rpp/format.h:270-278`) and prints it; then the program ends. A check that fails on the way is reported by a nested call; `begin` has counted the
scope before its check (`rpp/impl/alloc.cpp:66`). The result is the message printed, or `none` if `fuel` nested calls did not
come to an end. -/
def report (lim : Nat) : Nat → Reg → Msg → Option Msg
  | 0, _, _ => none
  | fuel + 1, s, m =>
    match s.begin LOG with
    | .error _ => report lim fuel { s with current := s.current + 1 } .depth
    | .ok s1 =>
      match s1.alloc lim LOG m.len with
      | .ok _ => some m
      | .error _ => report lim fuel s1 .ret

/-- `Log::log` for any message, `info` and `warn` included: the state afterwards, or what it ends in. The scope is closed
again (`rpp/alloc0.h:68-74`). -/
def log (lim : Nat) (fuel : Nat) (s : Reg) (len : Nat) : Except (Option Msg) Reg :=
  match s.begin LOG with
  | .error _ => .error (report lim fuel { s with current := s.current + 1 } .depth)
  | .ok s1 =>
    match s1.alloc lim LOG len with
    | .error _ => .error (report lim fuel s1 .ret)
    | .ok (s2, _, _) =>
      match s2.end' LOG with
      | .error _ => .error none
      | .ok s3 => .ok s3

end Rpp.Reg
