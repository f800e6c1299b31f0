import Verif.Proof.Locks

/-!
# C152: deadlocks

Full statement: threads that allocate, log, profile and make callbacks do not deadlock on the mutexes of the library.
-/

namespace Rpp.Props

open Rpp.Locks

variable {e : Env} {m : Nat} {inner : Nat → Bool}

/-- **C152, partial.** For all numbers of threads and all interleavings of calls: if the callbacks of the log take only mutexes of the
program under which nothing else is done, and those of `iterate_timings` do only that and log, then no mutex is released by a thread
that does not hold it, and there is a number of rounds after which no thread is in a call, however the rounds are arranged, as long
as each thread gets a turn in each of them and starts nothing new. Missing from the full statement because it is false: callbacks that
allocate, `C152_false`. -/
theorem C152_calls_end_partial (ho : e.Ordered inner) (es : List Ev) (hes : AllAllowed inner es) :
    ∃ s, runAll (step e m) {} es = .ok s ∧ ∃ k, ∀ ps : List (List Nat), k ≤ ps.length → (∀ p ∈ ps, ∀ j, j < m → j ∈ p) →
      ∃ s', runAll (step e m) s (ps.flatten.map .go) = .ok s' ∧ ∀ t, s'.todo t = [] := by
  obtain ⟨s, h1, hi⟩ := (Inv.init m).run ho es fun v hv => by
    cases v with
    | call t c => exact hes t c hv
    | go t => trivial
  refine ⟨s, h1, total m s + 1, fun ps hk hp => ?_⟩
  obtain ⟨s', h2, _, h⟩ := rounds (e := e) ps hi hp
  refine ⟨s', h2, fun t => ?_⟩
  by_contra hn
  have := h ⟨t, hn⟩
  omega

/-- A deadlock is for ever. -/
theorem C152_forever {s s' : St} {d : List Nat} (hd : Dead s d) {es : List Ev} (hs : runAll (step e m) s es = .ok s') :
    ∀ t ∈ d, s'.todo t = s.todo t := Dead.run es hd hs

/-- A callback of the log that allocates. -/
def logAllocs : Env := { onLog := fun t => [.allocs, .frames t] }

/-- A callback of `iterate_timings` that allocates. -/
def nodeAllocs : Env := { onNode := [.record false] }

/-- A callback of the log that takes a mutex of the program. -/
def logLocks : Env := { onLog := fun _ => [.own 0] }

/-- **C152 is false.** A callback of the log that allocates: a thread that frees memory twice has the mutex of the allocations and waits
for that of the log, which another thread has that waits for the first. The one thread alone waits for itself, as the allocation of the
callback needs the mutex it has. So does a thread whose callback of `iterate_timings` allocates, if it has profiled itself. And if the
callback of the log takes a mutex of the program, a thread that logs with that mutex held is in a deadlock with one that logs. -/
theorem C152_false :
    (∃ s, runAll (step logAllocs 2) {} [.call 0 (.record true), .call 1 .log, .go 0, .go 1] = .ok s ∧ Dead s [0, 1]) ∧
    (∃ s, runAll (step logAllocs 1) {} [.call 0 (.record true), .go 0, .go 0] = .ok s ∧ Dead s [0]) ∧
    (∃ s, runAll (step nodeAllocs 1) {} [.call 0 (.iterate [0]), .go 0, .go 0, .go 0, .go 0] = .ok s ∧ Dead s [0]) ∧
    ∃ s, runAll (step logLocks 2) {} [.call 0 (.own 0 [.log]), .call 1 .log, .go 0, .go 1] = .ok s ∧ Dead s [0, 1] := by
  refine ⟨⟨_, rfl, by simp, fun t ht => ?_⟩, ⟨_, rfl, by simp, fun t ht => ?_⟩, ⟨_, rfl, by simp, fun t ht => ?_⟩,
    ⟨_, rfl, by simp, fun t ht => ?_⟩⟩
  · simp only [List.mem_cons, List.not_mem_nil, or_false] at ht
    rcases ht with rfl | rfl
    · exact ⟨.log, _, 1, rfl, rfl, by simp⟩
    · exact ⟨.allocs, _, 0, rfl, rfl, by simp⟩
  · simp only [List.mem_cons, List.not_mem_nil, or_false] at ht
    subst ht
    exact ⟨.allocs, _, 0, rfl, rfl, by simp⟩
  · simp only [List.mem_cons, List.not_mem_nil, or_false] at ht
    subst ht
    exact ⟨.frames 0, _, 0, rfl, rfl, by simp⟩
  · simp only [List.mem_cons, List.not_mem_nil, or_false] at ht
    rcases ht with rfl | rfl
    · exact ⟨.log, _, 1, rfl, rfl, by simp⟩
    · exact ⟨.own 0, _, 0, rfl, rfl, by simp⟩

/-- Callbacks that keep to the rules; the program allocates with one mutex held and takes another one in both callbacks. -/
example : Env.Ordered { onLog := fun _ => [.own 1], onNode := [.log, .own 1] } (fun k => k == 1) ∧
    AllAllowed (fun k => k == 1) [.call 0 (.own 0 [.record true, .own 1]), .go 0, .call 1 (.own 1 []), .call 2 (.iterate [0, 1])] := by
  refine ⟨⟨fun t l hl => ?_, fun a ha => ?_⟩, fun t c hc => ?_⟩
  · simp at hl; subst hl; exact ⟨1, rfl, rfl⟩
  · simp at ha; rcases ha with rfl | rfl
    · trivial
    · rfl
  · simp at hc
    rcases hc with ⟨_, rfl⟩ | ⟨_, rfl⟩ | ⟨_, rfl⟩
    · exact ⟨by simp, by simp [Inside]⟩
    · exact ⟨fun _ => rfl, by simp⟩
    · trivial

/-- A thread iterates over the timings while another one allocates and logs. -/
example : (runAll (step { onNode := [.log] } 2) {} [.call 0 (.iterate [0, 1]), .call 1 (.object 3 (some true)), .go 0, .go 0, .go 1,
      .go 1, .go 1, .go 0, .go 1]).map (fun s : St => (s.todo 0, s.todo 1, s.lock .log, s.lock (.frames 0))) =
    .ok ([.acq .log, .rel .log, .rel (.frames 0), .acq (.frames 1), .acq .log, .rel .log, .rel (.frames 1), .rel .threads],
      [.rel .allocs, .acq (.frames 1), .rel (.frames 1), .rel (.pool 3)], none, some 0) := by
  decide +kernel

end Rpp.Props
