import Verif.Proof.FlagMac

/-!
# `Thread::Flag` on macOS (C106)
-/

namespace Rpp.Props
open Rpp Rpp.FlagMac

/-- C106. For any number of threads and every schedule with spurious wake-ups: nobody returns from `block` or sees `ready`
before a signal; once a signal has set the flag nobody sleeps, and no call of `ready` answers no any more. -/
theorem C106_safe (n : Nat) (es : List Ev) : ∃ s, runAll step (St.init n) es = .ok s ∧
    (0 < s.returned ∨ 0 < s.yes → 0 < s.set) ∧
    (0 < s.set → ∀ t : Nat, s.thr[t]? ≠ some .asleep) ∧ s.completed ≤ s.set ∧
    ∀ e s', 0 < s.set → step s e = .ok s' → s'.no = s.no := by
  obtain ⟨s, h1, h2⟩ := runAll_inv (step_inv n) es _ (init_inv n)
  refine ⟨s, h1, fun h => h.elim h2.ret h2.yes, h2.awake, h2.comp, ?_⟩
  intro e s' hs he
  have hv := h2.sig.1 hs
  cases e <;> unfold step at he <;> dsimp only [acquire] at he <;> (repeat' split at he) <;> cases he <;>
    first | rfl | simp_all

/-- C106. Once a signal has set the flag, all calls end: after `3 n` rounds in which each of the `n` threads gets a turn,
in any order, no thread is in `block`, `signal` or `ready` any more, if no new calls are made. -/
theorem C106_returns (n : Nat) (as : List Ev) (s : St) (hs : runAll step (St.init n) as = .ok s) (hd : 0 < s.set)
    (rounds : List (List Ev)) (hr : ∀ r ∈ rounds, (∀ e ∈ r, ∃ t, e = .go t) ∧ ∀ t, t < n → Ev.go t ∈ r)
    (hn : 3 * n ≤ rounds.length) :
    ∃ s', runAll step (St.init n) (as ++ rounds.flatten) = .ok s' ∧ ∀ t, t < n → s'.thr[t]? = some .idle := by
  obtain ⟨s0, h1, h2⟩ := runAll_inv (step_inv n) as _ (init_inv n)
  rw [hs] at h1; cases h1
  rw [runAll_append step as _ _ s hs]
  obtain ⟨s', h3, _, h4⟩ := run_rounds rounds s h2 hd hr (Nat.le_trans (work_le h2 hd) hn)
  exact ⟨s', h3, h4⟩

/-- C106. Calls end also before a signal: after `6 n` rounds in which each of the `n` threads gets a turn, in any order, no thread is in
`signal` or `ready`, a thread in `block` is asleep and then the flag is not set; a call of `signal` that was under way
has set it. -/
theorem C106_calls_end (n : Nat) (as : List Ev) (s : St) (hs : runAll step (St.init n) as = .ok s)
    (rounds : List (List Ev)) (hr : ∀ r ∈ rounds, (∀ e ∈ r, ∃ t, e = .go t) ∧ ∀ t, t < n → Ev.go t ∈ r)
    (hn : 6 * n ≤ rounds.length) :
    ∃ s', runAll step (St.init n) (as ++ rounds.flatten) = .ok s' ∧
      (∀ t, t < n → s'.thr[t]? = some .idle ∨ s'.thr[t]? = some .asleep ∧ s'.set = 0) ∧
      ((0 < s.set ∨ ∃ t : Nat, s.thr[t]? = some .sLock ∨ s.thr[t]? = some .sHeld) → 0 < s'.set) := by
  obtain ⟨s0, h1, h2⟩ := runAll_inv (step_inv n) as _ (init_inv n)
  rw [hs] at h1; cases h1
  rw [runAll_append step as _ _ s hs]
  obtain ⟨s', h3, hi, h4, h5⟩ := run_rounds0 rounds s h2 hr (Nat.le_trans (meas_le h2) hn)
  refine ⟨s', h3, h5, fun c => ?_⟩
  rcases h4 c with h | ⟨t, h⟩
  · exact h
  · have ht : t < n := by
      rw [← hi.len]
      rcases h with h | h <;> exact (List.getElem?_eq_some_iff.1 h).1
    rcases h5 t ht with h' | ⟨h', _⟩ <;> rcases h with h | h <;> rw [h] at h' <;> cases h'

/-- One thread asleep, one about to sleep, one about to signal: all are outside in the end. -/
example : (runAll step (St.init 3) ([.block 0, .go 0, .go 0, .block 1, .go 1, .signal 2] ++
    (List.replicate 18 [.go 2, .go 1, .go 0]).flatten)).map (fun s => (s.thr, s.set)) = .ok ([.idle, .idle, .idle], 1) := by
  decide +kernel

/-- A waiter asleep and another waiting for the mutex when the flag is signalled. -/
example : (runAll step (St.init 3) [.block 0, .go 0, .go 0, .signal 2, .go 2, .block 1, .go 1, .go 2]).map
      (fun s => (s.thr, s.set, s.completed, s.holder)) = .ok ([.bWoken, .bLock, .sUnlock], 1, 0, some 2) := by decide +kernel
example : (runAll step (St.init 3) [.block 0, .go 0, .go 0, .signal 2, .go 2, .block 1, .go 1, .go 2, .go 2, .go 1, .go 0,
    .go 1, .go 0, .go 0, .ready 2, .go 2, .go 2]).map
      (fun s => (s.thr, s.returned, s.yes, s.no)) = .ok ([.idle, .idle, .idle], 2, 1, 0) := by decide +kernel

end Rpp.Props
