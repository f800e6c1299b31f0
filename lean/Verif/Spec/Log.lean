/-!
# Specification: subscribers of the log

A program subscribes callbacks, unsubscribes them by the tokens it was given, and logs messages.
-/

namespace Rpp.Spec.Log

/-- What the program does. -/
inductive Op (C M : Type) where
  | subscribe (c : C)
  | unsubscribe (t : Nat)
  | message (m : M)

/-- What it sees: the token returned, or the callbacks called with the message. -/
inductive Out (C M : Type) where
  | token (t : Nat)
  | done
  | calls (l : List (C × M))
deriving DecidableEq

/-- The current subscribers with their tokens, and all tokens ever given out. -/
structure St (C : Type) where
  subs : List (Nat × C) := []
  used : List Nat := []

/-- The behaviours that are right: tokens are new, a message goes to every current subscriber exactly
once (in any order), only a current subscriber can be unsubscribed. -/
inductive Runs {C M : Type} : St C → List (Op C M) → List (Out C M) → St C → Prop where
  | nil (s : St C) : Runs s [] [] s
  | subscribe {s s' : St C} {ops : List (Op C M)} {outs : List (Out C M)} (c : C) (t : Nat) : t ∉ s.used →
      Runs ⟨s.subs ++ [(t, c)], s.used ++ [t]⟩ ops outs s' → Runs s (.subscribe c :: ops) (.token t :: outs) s'
  | unsubscribe {s s' : St C} {ops : List (Op C M)} {outs : List (Out C M)} (t : Nat) : t ∈ s.subs.map (·.1) →
      Runs ⟨s.subs.filter (·.1 ≠ t), s.used⟩ ops outs s' → Runs s (.unsubscribe t :: ops) (.done :: outs) s'
  | message {s s' : St C} {ops : List (Op C M)} {outs : List (Out C M)} (m : M) (l : List (C × M)) :
      l.Perm (s.subs.map fun x => (x.2, m)) → Runs s ops outs s' → Runs s (.message m :: ops) (.calls l :: outs) s'

/-- The operations that cannot go well in a given situation: unsubscribing somebody who is not subscribed, and
logging while a subscriber uses the log itself. -/
inductive Bad {C M : Type} (again : C → Bool) (s : St C) : Op C M → Prop where
  | unknown (t : Nat) : t ∉ s.subs.map (·.1) → Bad again s (.unsubscribe t)
  | again (m : M) (x : Nat × C) : x ∈ s.subs → again x.2 = true → Bad again s (.message m)

end Rpp.Spec.Log
