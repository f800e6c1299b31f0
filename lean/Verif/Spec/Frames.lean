/-!
# Specification: the frames of a thread

What a thread does: it begins frames, ends them, and in between something happens. The record of a frame
says when it began, what happened in it, and when it ended.
-/

namespace Rpp.Spec.Frames

/-- Operations of a thread. -/
inductive Op (ε : Type) where
  | begin (t : BitVec 64)
  | ev (e : ε)
  | fin (t : BitVec 64)

structure Rec (ε : Type) where
  t₀ : BitVec 64
  es : List ε := []
  t₁ : Option (BitVec 64) := none

variable {ε : Type}

/-- Whether the thread is in a frame. -/
def isOpen (rs : List (Rec ε)) : Bool :=
  match rs.getLast? with
  | some r => r.t₁.isNone
  | none => false

/-- Change the current frame. -/
def onLast (rs : List (Rec ε)) (f : Rec ε → Rec ε) : List (Rec ε) :=
  match rs.getLast? with
  | some r => rs.dropLast ++ [f r]
  | none => rs

/-- All frames so far, oldest first. A frame may not begin in another one, and has to end in balance (`bal`);
`none` means that the program stops. What happens outside of frames is not recorded. -/
def act (bal : List ε → Bool) (rs : List (Rec ε)) : Op ε → Option (List (Rec ε))
  | .begin t => if isOpen rs then none else some (rs ++ [{ t₀ := t }])
  | .ev e => if isOpen rs then some (onLast rs fun r => { r with es := r.es ++ [e] }) else some rs
  | .fin t =>
    match rs.getLast? with
    | some r => if r.t₁.isNone ∧ bal r.es then some (onLast rs fun r => { r with t₁ := some t }) else none
    | none => none

def acts (bal : List ε → Bool) : List (Rec ε) → List (Op ε) → Option (List (Rec ε))
  | rs, [] => some rs
  | rs, o :: os =>
    match act bal rs o with
    | some rs' => acts bal rs' os
    | none => none

/-- The last `n` frames. -/
def latest (n : Nat) (rs : List (Rec ε)) : List (Rec ε) := rs.drop (rs.length - n)

/-- The last frame that ended. -/
def lastEnded (rs : List (Rec ε)) : Option (Rec ε) := (rs.filter (·.t₁.isSome)).getLast?

end Rpp.Spec.Frames
