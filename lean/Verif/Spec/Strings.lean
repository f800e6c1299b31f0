import Verif.Model.Mem

/-!
# Specification: a program using string variables and views of them

Strings are values: a capacity's worth of bytes, of which the first `len` are visible; bytes never written have no value. A view
names the string it looks at: it sees what the string holds now, goes with the contents when they are moved to another variable, and
is of no use (`gone`) once the string is destroyed or gets new contents. Nothing of the implementation is mentioned; of `Mem` only the
names of outcomes are used: `die` if a number is out of range, `oom` for more than `lim` bytes, `ub` if the program uses a view that
is gone or a byte that has no value.
-/

namespace Rpp.Spec.Strs

/-- A string. -/
structure Val where
  buf : List (Option (BitVec 8))
  len : Nat
deriving DecidableEq

/-- What a view looks at. -/
inductive Target where
  | gone
  | var (x : Nat)
  | lit (b : List (BitVec 8))
deriving DecidableEq

/-- Bytes `off`, ..., `off + len - 1` of the target. -/
structure View where
  target : Target
  off : Nat
  len : Nat
deriving DecidableEq

/-- What the program sees. -/
inductive Out where
  | num (n : Nat)
  | bytes (l : List (BitVec 8))
deriving DecidableEq

/-- Operations on strings `x`, `y` and views `v`, `w`. -/
inductive Op where
  /-- `x = String(n)` -/
  | fresh (x n : Nat)
  /-- `v = "..."_v` -/
  | lit (v : Nat) (b : List (BitVec 8))
  /-- `x = y.clone()` -/
  | clone (x y : Nat)
  /-- `x = move(y)` -/
  | move (x y : Nat)
  /-- `x` goes out of scope, a new one takes its name. -/
  | drop (x : Nat)
  /-- `x.set_length(n)` -/
  | setLen (x n : Nat)
  /-- `x[i] = b`, which `x.write(i, c)` is too -/
  | put (x i : Nat) (b : BitVec 8)
  | get (x i : Nat)
  | length (x : Nat)
  /-- `x.write(i, v)` -/
  | writeView (x i v : Nat)
  /-- `x.write(i, y)` -/
  | writeStr (x i y : Nat)
  /-- `v = x.view()` -/
  | view (v x : Nat)
  /-- `v = x.sub(a, b)` -/
  | subStr (v x a b : Nat)
  /-- `v = w.sub(a, b)` -/
  | sub (v w a b : Nat)
  | viewGet (v i : Nat)
  /-- `for(u8 b : v)` -/
  | bytes (v : Nat)
  /-- `x = v.append(w)` -/
  | append (x v w : Nat)
  /-- `x = v.terminate()` -/
  | terminate (x v : Nat)
  /-- `x = v.string()` -/
  | string (x v : Nat)
deriving DecidableEq

/-- Values of all variables, and what the program saw. -/
structure St where
  vars : Nat → Val
  views : Nat → View
  out : List Out

/-- At the beginning. -/
def init : St := ⟨fun _ => ⟨[], 0⟩, fun _ => ⟨.gone, 0, 0⟩, []⟩

/-- Change one variable. -/
def set {β : Type} (f : Nat → β) (x : Nat) (b : β) : Nat → β := fun y => if y = x then b else f y

/-- The views after the contents of `x` are gone. -/
def kill (x : Nat) (f : Nat → View) : Nat → View :=
  fun v => if (f v).target = .var x then { f v with target := .gone } else f v

/-- The views after the contents of `y` were moved to `x`. -/
def follow (y x : Nat) (f : Nat → View) : Nat → View :=
  fun v => if (f v).target = .var y then { f v with target := .var x } else f v

/-- The bytes a view sees. Of no bytes there are always none to see. -/
def see (s : St) (v : View) : Res (List (Option (BitVec 8))) :=
  if v.len = 0 then .ok []
  else match v.target with
    | .gone => .error .ub
    | .var x => .ok (((s.vars x).buf.drop v.off).take v.len)
    | .lit b => .ok (((b.map some).drop v.off).take v.len)

/-- All of them have values. -/
def known (l : List (Option (BitVec 8))) : Res (List (BitVec 8)) :=
  if l.all Option.isSome then .ok (l.filterMap id) else .error .ub

/-- New contents for `x`. -/
def assign (lim : Nat) (s : St) (x : Nat) (v : Val) : Res St :=
  if v.buf.length > lim then .error .oom
  else .ok { s with vars := set s.vars x v, views := kill x s.views }

/-- The bytes `b` at place `i`. -/
def write (s : St) (x i : Nat) (b : List (Option (BitVec 8))) : St :=
  let v := s.vars x
  { s with vars := set s.vars x { v with buf := v.buf.take i ++ b ++ v.buf.drop (i + b.length) } }

/-- Meaning of an operation. -/
def step (lim : Nat) (s : St) : Op → Res St
  | .fresh x n => assign lim s x ⟨List.replicate n none, 0⟩
  | .lit v b => .ok { s with views := set s.views v ⟨.lit b, 0, b.length⟩ }
  | .clone x y =>
    let t := s.vars y
    assign lim s x ⟨t.buf.take t.len ++ List.replicate (t.buf.length - t.len) none, t.len⟩
  | .move x y =>
    if x = y then .ok { s with vars := set s.vars x ⟨[], 0⟩, views := kill x s.views }
    else .ok { s with vars := set (set s.vars x (s.vars y)) y ⟨[], 0⟩, views := follow y x (kill x s.views) }
  | .drop x => .ok { s with vars := set s.vars x ⟨[], 0⟩, views := kill x s.views }
  | .setLen x n =>
    if n ≤ (s.vars x).buf.length then .ok { s with vars := set s.vars x { s.vars x with len := n } } else .error .die
  | .put x i b => if i < (s.vars x).len then .ok (write s x i [some b]) else .error .die
  | .get x i =>
    if i < (s.vars x).len then
      match known (((s.vars x).buf.drop i).take 1) with
      | .error e => .error e
      | .ok l => .ok { s with out := s.out ++ [.bytes l] }
    else .error .die
  | .length x => .ok { s with out := s.out ++ [.num (s.vars x).len] }
  | .writeView x i v =>
    if i + (s.views v).len ≤ (s.vars x).len then
      match see s (s.views v) with
      | .error e => .error e
      | .ok b => .ok (write s x i b)
    else .error .die
  | .writeStr x i y =>
    if i + (s.vars y).len ≤ (s.vars x).len then .ok (write s x i ((s.vars y).buf.take (s.vars y).len)) else .error .die
  | .view v x => .ok { s with views := set s.views v ⟨.var x, 0, (s.vars x).len⟩ }
  | .subStr v x a b =>
    if a ≤ b ∧ b ≤ (s.vars x).len then .ok { s with views := set s.views v ⟨.var x, a, b - a⟩ } else .error .die
  | .sub v w a b =>
    let u := s.views w
    if a ≤ b ∧ b ≤ u.len then .ok { s with views := set s.views v ⟨u.target, u.off + a, b - a⟩ } else .error .die
  | .viewGet v i =>
    let u := s.views v
    if i < u.len then
      match see s ⟨u.target, u.off + i, 1⟩ with
      | .error e => .error e
      | .ok b => match known b with
        | .error e => .error e
        | .ok l => .ok { s with out := s.out ++ [.bytes l] }
    else .error .die
  | .bytes v =>
    match see s (s.views v) with
    | .error e => .error e
    | .ok b => match known b with
      | .error e => .error e
      | .ok l => .ok { s with out := s.out ++ [.bytes l] }
  | .append x v w =>
    if (s.views v).len + (s.views w).len > lim then .error .oom
    else match see s (s.views v) with
      | .error e => .error e
      | .ok a => match see s (s.views w) with
        | .error e => .error e
        | .ok b => assign lim s x ⟨a ++ b, (a ++ b).length⟩
  | .terminate x v =>
    if (s.views v).len + 1 > lim then .error .oom
    else match see s (s.views v) with
      | .error e => .error e
      | .ok a => assign lim s x ⟨a ++ [some 0#8], a.length + 1⟩
  | .string x v =>
    if (s.views v).len > lim then .error .oom
    else match see s (s.views v) with
      | .error e => .error e
      | .ok a => assign lim s x ⟨a, a.length⟩

/-- Meaning of a program. -/
def run (lim : Nat) (s : St) : List Op → Res St
  | [] => .ok s
  | o :: os => match step lim s o with
    | .error e => .error e
    | .ok s => run lim s os

/-- A write whose source and destination are bytes of the same string that overlap. -/
def Overlap (s : St) : Op → Prop
  | .writeView x i v =>
    let u := s.views v
    u.target = .var x ∧ u.len ≠ 0 ∧ i < u.off + u.len ∧ u.off < i + u.len
  | .writeStr x _ y => x = y ∧ (s.vars x).len ≠ 0
  | _ => False

/-- The numbers in the operation are below those at which sums no longer fit into 64 bits. -/
def Small : Op → Prop
  | .lit _ b => b.length < 2 ^ 62
  | .writeView _ i _ => i < 2 ^ 63
  | .writeStr _ i _ => i < 2 ^ 63
  | _ => True

end Rpp.Spec.Strs
