import Verif.Proof.Flag

/-!
# `Thread::Flag` (C53)
-/

namespace Rpp.Props
open Rpp Rpp.Flag

/-- What C53 asks of a run: nobody returns from `block` or sees `ready` before a signal; when a signal has
completed nobody sleeps; and before that a thread that has set the word still has the waking to do, so
that no sleeper is forgotten. -/
def FlagSafe (s : St) : Prop :=
  (0 < s.returned ∨ 0 < s.readies → 0 < s.set) ∧
  (0 < s.completed → ∀ t : Nat, s.thr[t]? ≠ some .asleep) ∧
  (0 < s.set → s.completed = 0 → ∃ u : Nat, s.thr[u]? = some .wake)

/-- The full statement of C53 (false, see `C53_false`): every schedule goes through and is safe. -/
def FlagFull : Prop := ∀ (n : Nat) (es : List Ev), ∃ s, runAll step (St.init n) es = .ok s ∧ FlagSafe s

/-- C53. For any number of threads and every schedule in which no sleeping thread is interrupted by a signal
handler. Missing: interruption. -/
theorem C53_safe_partial (n : Nat) (es : List Ev) (hc : ∀ e ∈ es, Calm e) :
    ∃ s, runAll step (St.init n) es = .ok s ∧ FlagSafe s := by
  obtain ⟨s, h1, h2⟩ := runAll_inv_of step_inv es _ hc (init_inv n)
  refine ⟨s, h1, fun h => h.elim h2.ret h2.rdy, h2.none_asleep, fun a b => ?_⟩
  exact wakers_pos (by have := h2.bal; omega)

/-- C53. When a signal has completed (in the state after the schedule `as`), every thread that is in `block`,
or enters it later, is out of it after two steps of its own, whatever the other threads do in between;
the thread does not enter `block` again in `bs`. -/
theorem C53_returns_partial (n : Nat) (as bs : List Ev) (s : St) (t : Nat) (hc : ∀ e ∈ as, Calm e)
    (hs : runAll step (St.init n) as = .ok s) (hd : 0 < s.completed) (hb : ∀ e ∈ bs, Calm e)
    (hb2 : Ev.block t ∉ bs) (h2 : 2 ≤ bs.count (.go t)) :
    ∃ s', runAll step (St.init n) (as ++ bs) = .ok s' ∧
      s'.thr[t]? ≠ some .load ∧ s'.thr[t]? ≠ some .wait ∧ s'.thr[t]? ≠ some .asleep := by
  obtain ⟨s0, h0, hi⟩ := runAll_inv_of step_inv as _ hc (init_inv n)
  rw [hs] at h0; cases h0
  rw [runAll_append step as bs _ s hs]
  have hstep : ∀ (s : St) (e : Ev), Stays t e → Inv s ∧ 0 < s.completed →
      ∃ s', step s e = .ok s' ∧ Inv s' ∧ 0 < s'.completed := by
    intro s e he h
    obtain ⟨s', a, b⟩ := step_inv s e he.1 h.1
    exact ⟨s', a, b, Nat.lt_of_lt_of_le h.2 (completed_step s s' e a)⟩
  have hst : ∀ e ∈ bs, Stays t e := fun e he => ⟨hb e he, fun c => hb2 (c ▸ he)⟩
  obtain ⟨s', h3, h4⟩ := runAll_inv_of hstep bs s hst ⟨hi, hd⟩
  refine ⟨s', h3, ?_⟩
  have h5 := runAll_drain hstep (left t) (· == Ev.go t)
    (fun s e s' he h h6 => left_step t s s' e he h.1 h.2 h6) bs s s' hst ⟨hi, hd⟩ h3
  have h6 : bs.countP (· == Ev.go t) = bs.count (Ev.go t) := rfl
  have h7 : left t s ≤ 2 := by
    unfold left
    split
    · omega
    · omega
    · exact absurd (by assumption) (hi.none_asleep hd t)
    · omega
  have h8 : left t s' = 0 := by omega
  unfold left at h8
  refine ⟨fun c => ?_, fun c => ?_, fun c => ?_⟩ <;> rw [c] at h8 <;> simp at h8

/-- C53 is false as stated: a waiter that is interrupted by a signal handler ends the program, because
`block` takes every error of `FUTEX_WAIT` but `EAGAIN`, also `EINTR`, as fatal. -/
theorem C53_false : ¬ FlagFull := by
  intro h
  obtain ⟨s, h1, _⟩ := h 1 [.block 0, .go 0, .go 0, .intr 0]
  have : (runAll step (St.init 1) [.block 0, .go 0, .go 0, .intr 0]).map (fun _ => ()) = .error .die := by
    decide +kernel
  rw [h1] at this
  cases this

/-- Two waiters, one asleep and one between the load and the system call, when the flag is signalled. -/
example : (runAll step (St.init 3)
    [.block 0, .go 0, .go 0, .block 1, .go 1, .signal 2, .go 1, .ready 1]).map
      (fun s => (s.thr, s.set, s.completed)) = .ok ([.asleep, .load, .wake], 1, 0) := by decide +kernel
example : (runAll step (St.init 3)
    [.block 0, .go 0, .go 0, .block 1, .go 1, .signal 2, .go 1, .go 2, .go 0, .go 1, .ready 2]).map
      (fun s => (s.thr, s.returned, s.readies)) = .ok ([.idle, .idle, .idle], 2, 1) := by decide +kernel
/-- The hypotheses of the second statement are met with a waiter still in `block`. -/
example : (runAll step (St.init 2) [.block 0, .go 0, .signal 1, .go 1]).map
    (fun s => (s.thr, s.completed)) = .ok ([.wait, .idle], 1) := by decide +kernel

end Rpp.Props
