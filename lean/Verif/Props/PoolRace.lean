import Verif.Proof.PoolRace

/-!
# C139: data races in the pool

Full statement: no two threads of a pool touch the same data at the same time with one of them changing it.
-/

namespace Rpp.Props

open Rpp.PoolRace

variable {n m : Nat}

/-- **C139, partial.** For all numbers of workers and threads and all interleavings: no mutex is released by a thread that does not
hold it, and the only data race is the one between the look at a queue in `enqueue` and a change of that queue. Missing from the
full statement because it is false: that race, `C139_false`. -/
theorem C139_races_partial (es : List Ev) : ∃ s, runAll (step n m) {} es = .ok s ∧
    ∀ t u a b, Race s t u a b → ∃ i, (a = .peek i ∧ b = .wr (.jobs i)) ∨ (a = .wr (.jobs i) ∧ b = .peek i) := by
  obtain ⟨s, e, held, hl, hs, _⟩ := (Inv.init m).run (n := n) es
  refine ⟨s, e, ?_⟩
  rintro t u a b ⟨htu, ⟨_, ha⟩, ⟨_, hb⟩, f, x, y, hx, hy, hxy⟩
  have one : ∀ l, ¬ (l ∈ held t ∧ l ∈ held u) := fun l ⟨h1, h2⟩ => by
    have h1 := (hl t l).mpr h1
    rw [(hl u l).mpr h2] at h1
    cases h1
    exact htu rfl
  obtain ⟨ra, hra⟩ : ∃ r, (s.thr t).todo = a :: r := by
    cases h : (s.thr t).todo with
    | nil => rw [h] at ha; cases ha
    | cons o r => rw [h] at ha; cases ha; exact ⟨r, rfl⟩
  obtain ⟨rb, hrb⟩ : ∃ r, (s.thr u).todo = b :: r := by
    cases h : (s.thr u).todo with
    | nil => rw [h] at hb; cases hb
    | cons o r => rw [h] at hb; cases hb; exact ⟨r, rfl⟩
  have sa := hs t
  have sb := hs u
  rw [hra] at sa
  rw [hrb] at sb
  cases a <;> cases b <;> simp only [touches, reduceCtorEq, Option.some.injEq, Prod.mk.injEq] at hx hy <;>
    obtain ⟨rfl, rfl⟩ := hx <;> obtain ⟨h, rfl⟩ := hy <;> simp only [reduceCtorEq, or_false, or_self, false_or, or_true] at hxy <;>
    (try subst h) <;> simp only [Safe, decide_eq_true_eq] at sa sb
  all_goals grind

/-- **C139 is false**: a thread looks whether the first queue is empty while another one, which holds its mutex, adds a job to it. -/
theorem C139_false : ∃ s, runAll (step 2 5) {} [.call 3 (.enqueue 0 false), .go 3, .go 3, .go 3, .go 3, .call 4 (.enqueue 0 false),
      .go 4] = .ok s ∧ Race s 4 3 (.peek 0) (.wr (.jobs 0)) :=
  ⟨_, rfl, by decide, ⟨rfl, rfl⟩, ⟨rfl, rfl⟩, .jobs 0, false, true, rfl, rfl, .inr rfl⟩

/-- The mutexes of the pool do not deadlock: from every state that is reached there is a number of rounds after which no thread is
in a call, however the rounds are arranged, as long as each thread gets a turn in each of them and starts nothing new. -/
theorem C139_calls_end {es : List Ev} {s : St} (hs : runAll (step n m) {} es = .ok s) :
    ∃ k, ∀ ps : List (List Nat), k ≤ ps.length → (∀ p ∈ ps, ∀ i, i < m → i ∈ p) →
      ∃ s', runAll (step n m) s (ps.flatten.map .go) = .ok s' ∧ ∀ t, (s'.thr t).todo = [] := by
  obtain ⟨s', e, hi⟩ := (Inv.init m).run (n := n) es
  rw [hs] at e
  cases e
  refine ⟨total m s + 1, fun ps hk hp => ?_⟩
  obtain ⟨s', e, _, h⟩ := rounds (n := n) ps hi hp
  refine ⟨s', e, fun t => ?_⟩
  by_contra hn
  have := h ⟨t, hn⟩
  omega

/-- The event thread passes a job on while another thread hands over an event and a worker takes a job. -/
example : (runAll (step 1 3) {} [.call 0 (.fire 0 true), .go 0, .go 0, .go 0, .call 2 .enqueueEvent, .go 2, .call 1 (.take 0), .go 1,
      .go 0, .go 0, .go 0, .go 0, .go 0, .go 0, .go 0, .go 1, .go 1, .go 1, .go 1, .go 1, .go 0]).map
      (fun s : St => ((List.range 3).map fun t => (s.thr t).todo, s.lock .events, s.lock (.queue 0))) =
    .ok ([[.wr (.jobs 0), .rel (.queue 0), .rel .events], [],
      [.acq .events, .wr .toEnqueue, .rd .pending, .rel .events]], some 0, some 0) := by
  decide +kernel

end Rpp.Props
