import Verif.Proof.Log

/-!
# C63, C78: log subscribers
-/

namespace Rpp.Props

open Rpp.Log Rpp.Spec.Log

variable {C M : Type}

/-- For all programs of subscribing, unsubscribing and logging: as far as the program gets, tokens are distinct and
each message reaches every current subscriber exactly once and nobody else. It gets to the end unless it comes to an
operation that is bad where it stands (an unknown token, or a subscriber that uses the log), and there it hangs.
Memory suffices for the number of operations. -/
theorem C63_delivery {H : Nat → Nat} (hH : ∀ t, H t < 2 ^ 64) {lim : Nat} (hlim : lim < 2 ^ 62) (again : C → Bool)
    (ops : List (Op C M)) (hn : 3 * ops.length + 32 ≤ lim) :
    (∃ outs a, run H lim again {} ops = (outs, none) ∧ Runs {} ops outs a) ∨
    (∃ outs a pre op post, run H lim again {} ops = (outs, some .hang) ∧ ops = pre ++ op :: post ∧
      Runs {} pre outs a ∧ Bad again a op) := by
  rcases run_ok hH hlim again ops {} {} 0 (init_inv H lim) (by omega) with ⟨outs, a, e, r, _⟩ | h
  · exact .inl ⟨outs, a, e, r⟩
  · exact .inr h

/-- When nothing bad comes up, no call of the log hangs. `_partial`: what is missing is `C78_false`. -/
theorem C78_returns_partial {H : Nat → Nat} (hH : ∀ t, H t < 2 ^ 64) {lim : Nat} (hlim : lim < 2 ^ 62) (again : C → Bool)
    (ops : List (Op C M)) (hn : 3 * ops.length + 32 ≤ lim)
    (hb : ∀ pre op post outs a, ops = pre ++ op :: post → Runs {} pre outs a → ¬ Bad again a op) :
    (run H lim again {} ops).2 = none := by
  rcases run_ok hH hlim again ops {} {} 0 (init_inv H lim) (by omega) with ⟨outs, a, e, _⟩ | ⟨outs, a, pre, op, post, _, ho, r, hbad⟩
  · rw [e]
  · exact absurd hbad (hb pre op post outs a ho r)

/-- As soon as something bad comes up, the program hangs; it is never stopped with a message. -/
theorem C78_hangs {H : Nat → Nat} (hH : ∀ t, H t < 2 ^ 64) {lim : Nat} (hlim : lim < 2 ^ 62) (again : C → Bool)
    (ops : List (Op C M)) (hn : 3 * ops.length + 32 ≤ lim) {pre post : List (Op C M)} {op : Op C M} {a : Spec.Log.St C}
    (ho : ops = pre ++ op :: post)
    (hr : Runs {} pre ((run H lim again {} ops).1.take pre.length) a) (hb : Bad again a op) :
    (run H lim again {} ops).2 = some .hang := by
  rcases run_ok hH hlim again ops {} {} 0 (init_inv H lim) (by omega) with ⟨outs, a', e, _, hx⟩ | ⟨outs, a', _, _, _, e, _⟩
  · rw [e] at hr
    exact absurd hb (hx pre op post op a ho hr rfl)
  · rw [e]

/-- Unsubscribing twice hangs, and so does a subscriber that logs: neither returns, neither ends the program. -/
theorem C78_false : run (fun t => t * 2 ^ 60) 100 (fun _ => false) {} ([.subscribe 10, .unsubscribe 1, .unsubscribe 1] : List (Op Nat Nat)) =
      ([.token 1, .done], some .hang) ∧
    run (fun t => t * 2 ^ 60) 100 (fun c => c = 20) {} ([.subscribe 10, .subscribe 20, .message 5] : List (Op Nat Nat)) =
      ([.token 1, .token 2], some .hang) := by
  decide +kernel

/-- The last subscriber leaves and another one comes: the map is used again after its destructor. -/
def demoLog : List (Op Nat Nat) := [.subscribe 10, .subscribe 20, .message 1, .unsubscribe 1, .message 2, .unsubscribe 2,
  .message 3, .subscribe 30, .message 4]

example : run (fun t => t * 2 ^ 60) 100 (fun _ => false) {} demoLog =
    ([.token 1, .token 2, .calls [(10, 1), (20, 1)], .done, .calls [(20, 2)], .done, .calls [], .token 3, .calls [(30, 4)]], none) := by
  decide +kernel

end Rpp.Props
