import Verif.Model.ProfileSync

/-!
# Programs that use the profiler in the intended way
-/

namespace Rpp.PSync

/-- The thread is in `iterate_timings`. -/
def iterating : Pc → Bool
  | .itLock _ | .itNext _ _ | .itHeld _ _ _ | .itRead _ _ _ | .cbReg _ _ | .cbLock _ _ _ => true
  | _ => false

/-- The thread is about to end. -/
def ending : Pc → Bool
  | .endWrite | .unregLock | .unregHeld => true
  | _ => false

/-- The thread is not in a call. -/
def atRest : Pc → Bool
  | .idle | .gone => true
  | _ => false

/-- The event is allowed: there are `n` threads, frames are not nested, a thread ends outside of frames, and no thread ends while
`iterate_timings` runs. An event of a thread that is in a call is not looked at. -/
def Allowed (n : Nat) (s : St) : Ev → Prop
  | .call t op => t < n ∧ ((s.thr t).pc = .idle → (op = .begin → (s.thr t).during = false) ∧
      (op = .finish → (s.thr t).registered = true ∧ (s.thr t).during = true))
  | .iterate t _ => t < n ∧ ∀ i, ending (s.thr i).pc = false
  | .exit t => t < n ∧ (s.thr t).during = false ∧ ∀ i, iterating (s.thr i).pc = false
  | .go _ => True

/-- All events are allowed where they happen. -/
def Disciplined (n : Nat) : St → List Ev → Prop
  | _, [] => True
  | s, e :: r => Allowed n s e ∧ ∀ s', step s e = .ok s' → Disciplined n s' r

end Rpp.PSync
