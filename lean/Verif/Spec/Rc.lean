import Verif.Model.Rc

/-! What it means for reference counts to be right. -/

namespace Rpp
namespace Rc
variable {α : Type}

/-- The block that the handle at a location points to, if there is a handle there and it is not null. -/
def St.target (s : St α) : Loc → Option Nat
  | .var i => ((s.vars[i]?).join).join
  | .fld b => (s.blk b).bind Blk.next

/-- All places where a handle can be. -/
def St.locs (s : St α) : List Loc :=
  (List.range s.vars.length).map Loc.var ++ (List.range s.blks.length).map Loc.fld

/-- The number of live handles to block `b`. -/
def St.handles (s : St α) (b : Nat) : Nat := s.locs.countP (fun l => s.target l = some b)

/-- The property: each live block has as many references as there are handles to it, and at least one;
handles point to live blocks; no value was destructed twice, and those that were destructed are those
whose block is gone. -/
structure Good (s : St α) : Prop where
  count : ∀ b k, s.blk b = some k → k.refs = s.handles b
  used : ∀ b k, s.blk b = some k → 0 < s.handles b
  live : ∀ l b, s.target l = some b → (s.blk b).isSome
  once : s.dead.Nodup
  dead : ∀ b, b ∈ s.dead ↔ b < s.blks.length ∧ s.blk b = none

/-- Block `x` can be reached from a variable without using the handle at `l`. -/
inductive Reach (s : St α) (l : Loc) : Nat → Prop where
  | var {v x} : Loc.var v ≠ l → s.target (.var v) = some x → Reach s l x
  | fld {y x} : Reach s l y → Loc.fld y ≠ l → s.target (.fld y) = some x → Reach s l x

/-- Starting at variable `v` and following `n` handles leads to the handle at `l`. -/
inductive Leads (s : St α) (v : Nat) : Nat → Loc → Prop where
  | var : Leads s v 0 (.var v)
  | fld {n l b} : Leads s v n l → s.target l = some b → Leads s v (n + 1) (.fld b)

/-- One of the first `n` handles on the way from `v` is null. -/
def NullOn (s : St α) (v n : Nat) : Prop := ∃ m l, m < n ∧ Leads s v m l ∧ s.target l = none

/-- The operations that follow a null handle. -/
def Stops (s : St α) : Op α → Prop
  | .null | .make _ | .leave _ => False
  | .dup p | .move p | .clear p => NullOn s p.var p.steps
  | .fromThis p => NullOn s p.var (p.steps + 1)
  | .assign p q => NullOn s p.var p.steps ∨ NullOn s q.var q.steps

/-- The variable exists. -/
def St.Has (s : St α) (v : Nat) : Prop := ∃ h, s.vars[v]? = some (some h)

/-- What the caller has to see to: variables that are mentioned exist, there is memory for a new
variable, and in `p = move(q)` the value that `q` is part of does not go away with the old value of `p`. -/
def Legal (s : St α) : Op α → Prop
  | .null | .make _ => s.vars.length + s.blks.length < 2 ^ 63
  | .dup p | .fromThis p | .move p => s.vars.length + s.blks.length < 2 ^ 63 ∧ s.Has p.var
  | .clear p => s.Has p.var
  | .leave v => s.Has v
  | .assign p q => s.Has p.var ∧ s.Has q.var ∧
    ∀ lp d, Leads s p.var p.steps lp → Leads s q.var q.steps (.fld d) → Reach s lp d

/-- States that arise by legal operations. -/
inductive Reachable : St α → Prop where
  | init : Reachable St.init
  | step {s op s'} : Reachable s → Legal s op → exec s op = .ok s' → Reachable s'

/-- Change `G` at `l`. -/
def upd (G : Loc → Option Nat) (l : Loc) (x : Option Nat) : Loc → Option Nat :=
  fun l' => if l' = l then x else G l'

/-- After the operation the handles point to what `G` says, except for handles inside values that were
destroyed; and the values that are still there are unchanged. -/
def Effect (s s' : St α) (G : Loc → Option Nat) : Prop :=
  (∀ l, s'.target l = G l ∨ ∃ x, l = .fld x ∧ s'.blk x = none) ∧
  (∀ x k', x < s.blks.length → s'.blk x = some k' → ∃ k, s.blk x = some k ∧ k'.val = k.val)

/-- What the handles should point to after an operation on `s`. -/
def after (s : St α) (op : Op α) (G : Loc → Option Nat) : Prop :=
  match op with
  | .null => G = upd s.target (.var s.vars.length) none
  | .make _ => G = upd s.target (.var s.vars.length) (some s.blks.length)
  | .dup p | .fromThis p => ∃ l, Leads s p.var p.steps l ∧
      G = upd s.target (.var s.vars.length) (s.target l)
  | .move p => ∃ l, Leads s p.var p.steps l ∧
      G = upd (upd s.target l none) (.var s.vars.length) (s.target l)
  | .assign p q => ∃ lp lq, Leads s p.var p.steps lp ∧ Leads s q.var q.steps lq ∧
      G = upd (upd s.target lp (s.target lq)) lq none
  | .clear p => ∃ l, Leads s p.var p.steps l ∧ G = upd s.target l none
  | .leave v => G = upd s.target (.var v) none

end Rc
end Rpp
