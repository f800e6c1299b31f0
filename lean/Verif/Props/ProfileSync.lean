import Verif.Proof.ProfileSyncLive

/-!
# C128: threads that use the profiler
-/

namespace Rpp.Props
open Rpp Rpp.PSync

variable {n : Nat}

/-- **C128, partial.** For all numbers of threads and all interleavings: if frames are opened and closed properly, and no
thread ends while `iterate_timings` runs, there is no data race, no access to the profile of a thread that is gone, and no check
fails. Full statement: the same without the second condition. Missing because false: `C128_false`. -/
theorem C128_safe_partial {es : List Ev} (h : Disciplined n {} es) : ∃ s, runAll step {} es = .ok s := by
  obtain ⟨s, e, _⟩ := (Inv.init n).run h
  exact ⟨s, e⟩

/-- A thread is in the table exactly once from its registration until it
leaves. -/
theorem C128_table {es : List Ev} (h : Disciplined n {} es) {s : St} (hs : runAll step {} es = .ok s) :
    s.table.Nodup ∧ ∀ t, t ∈ s.table ↔ (s.thr t).registered = true := by
  obtain ⟨s', e, hi⟩ := (Inv.init n).run h
  rw [hs] at e
  cases e
  exact ⟨hi.nodup, hi.tab⟩

/-- All calls end: with callbacks that do not use the profiler, from every state that is reached there is a number of rounds
after which no thread is in a call, however the rounds are arranged, as long as each thread gets a turn in each of them and starts nothing new. -/
theorem C128_calls_end {es : List Ev} (h : Disciplined n {} es) (hc : ∀ t cb, Ev.iterate t cb ∈ es → cb = .none) {s : St}
    (hs : runAll step {} es = .ok s) :
    ∃ k, ∀ ps : List (List Nat), k ≤ ps.length → (∀ p ∈ ps, ∀ i, i < n → i ∈ p) →
      ∃ s', runAll step s (ps.flatten.map .go) = .ok s' ∧ ∀ t, atRest (s'.thr t).pc = true := by
  obtain ⟨hi, hp⟩ := plain_run (Inv.init n) (fun _ => rfl) h hc hs
  refine ⟨total n s + 1, fun ps hk hps => ?_⟩
  obtain ⟨s', e, _, _, _, hlt⟩ := rounds ps s hi hp hps
  refine ⟨s', e, fun t => ?_⟩
  cases hr : atRest (s'.thr t).pc with
  | true => rfl
  | false => have := hlt ⟨t, hr⟩; omega

/-- Misuse is reported: `begin_frame` within a frame and `end_frame` outside of one, or on a thread that is not registered, fail a
check instead of touching the frames. -/
theorem C128_misuse {es : List Ev} {s : St} (hs : runAll step {} es = .ok s) {t : Nat} (hp : (s.thr t).pc = .idle) :
    ((s.thr t).registered = true → (s.thr t).during = true → runAll step {} (es ++ [.call t .begin]) = .error .die) ∧
    ((s.thr t).registered = false ∨ (s.thr t).during = false → runAll step {} (es ++ [.call t .finish]) = .error .die) := by
  rw [runAll_append step es _ _ _ hs, runAll_append step es _ _ _ hs]
  refine ⟨fun hr hd => ?_, fun h => ?_⟩
  · simp [Except.bind, bind, runAll, step, hp, call, hr, afterReady, hd]
  · have hn : ¬ ((s.thr t).registered = true ∧ (s.thr t).during = true) := by
      rintro ⟨a, b⟩
      rcases h with h | h <;> simp_all
    simp [Except.bind, bind, runAll, step, hp, call, hn]

/-- A thread that ends within a frame, while no thread is in `iterate_timings`, fails a check: its frames are dropped first, and the
frame it is in is not found when it is to be closed. -/
theorem C128_exit_in_frame {es : List Ev} (h : Disciplined n {} es) {s : St} (hs : runAll step {} es = .ok s) {t : Nat}
    (hp : (s.thr t).pc = .idle) (hd : (s.thr t).during = true) (hq : ∀ i, iterating (s.thr i).pc = false) :
    runAll step {} (es ++ [.exit t, .go t]) = .error .die := by
  obtain ⟨s', e, hi⟩ := (Inv.init n).run h
  rw [hs] at e
  cases e
  have hr : (s.thr t).readers = 0 := by
    cases hl : (s.thr t).lock with
    | none => exact hi.rd0 t hl
    | some u =>
      refine hi.rd t u hl fun hru => ?_
      have := hq u
      revert hru this
      cases (s.thr u).pc <;> simp [reads, iterating]
  have hw : (s.thr t).writing = false := by rw [hi.wr t, hp]; rfl
  rw [runAll_append step es _ _ _ hs]
  simp [runAll, step, hp, startWrite, hr, hw, PSync.go, upd_thr, hd]

/-- **C128 is false when a thread ends during `iterate_timings`**: the destructor of its profile drops the frames
without taking their lock, while they are read. -/
theorem C128_false : (runAll step {} [.call 1 .begin, .go 1, .go 1, .go 1, .go 1, .go 1, .call 1 .finish, .go 1, .go 1, .go 1,
      .iterate 0 .none, .go 0, .go 0, .go 0, .exit 1]).map (fun _ => ()) = .error .ub := by
  decide +kernel

/-- **Callbacks that use the profiler**: `iterate_timings` on thread `t` never returns once its callback allocates while the
frame of `t` itself is shown, or enters a scope then within a frame, or enters a scope before `t` was registered: the callback
waits for a lock that its own thread holds. -/
theorem C128_callback_hangs {pre : List Ev} (h : Disciplined n {} pre) {s s1 : St} (hs : runAll step {} pre = .ok s) {t u : Nat}
    {r : List Nat}
    (hcb : (s.thr t).pc = .itRead .alloc t r ∨
      ((s.thr t).pc = .itRead .scope t r ∧ (s.thr t).registered = true ∧ (s.thr t).during = true) ∨
      ((s.thr t).pc = .itRead .scope u r ∧ (s.thr t).registered = false))
    (h1 : step s (.go t) = .ok s1) {es : List Ev} (hd : Disciplined n s1 es) :
    ∃ s', runAll step s1 es = .ok s' ∧ iterating (s'.thr t).pc = true := by
  obtain ⟨s0, e0, hi⟩ := (Inv.init n).run h
  rw [hs] at e0
  cases e0
  obtain ⟨s2, e2, hi1⟩ := hi.go t
  simp only [step] at h1
  have hk : Stuck s1 t := by
    unfold PSync.go at h1
    rcases hcb with hp | ⟨hp, hr, hd⟩ | ⟨hp, hr⟩
    · simp only [hp] at h1
      cases h1
      exact .inl ⟨.alloc, r, by simp [upd_thr]⟩
    · simp only [hp, hr, hd, if_true] at h1
      cases h1
      exact .inl ⟨.scope, r, by simp [upd_thr]⟩
    · simp only [hp, hr] at h1
      cases h1
      exact .inr ⟨u, r, by simp [upd_thr]⟩
  rw [h1] at e2
  cases e2
  obtain ⟨s', e, _⟩ := hi1.run hd
  refine ⟨s', e, ?_⟩
  rw [Stuck.run hi1 hk hd e]
  rcases hk with ⟨cb, r, hk⟩ | ⟨u, r, hk⟩ <;> rw [hk] <;> rfl

/-- Two threads record frames while a third one looks at them: the accesses wait for each other and all calls end. -/
def demoProfile : List Ev :=
  [.call 0 .begin, .call 1 .begin, .go 0, .go 1, .go 0, .go 1, .go 0, .go 1, .go 0, .go 1, .go 0, .go 1, .go 1,
    .iterate 2 .none, .call 0 .finish, .go 2, .go 0, .go 2, .go 0, .go 0, .go 2, .go 2, .go 2, .call 1 .scope, .go 1, .go 2, .go 2, .go 2]

example : (runAll step {} demoProfile).map (fun s => ((List.range 3).map fun t => (s.thr t).pc, s.table,
    (List.range 3).map fun t => (s.thr t).frames)) = .ok ([.idle, .opHeld .scope, .itNext .none [1]], [0, 1], [1, 1, 0]) := by
  decide +kernel

/-- A frame opened twice. -/
example : (runAll step {} ([.call 0 .begin, .go 0, .go 0, .go 0, .go 0, .go 0] ++ [.call 0 .begin])).map (fun _ => ()) =
    .error .die := by
  decide +kernel

/-- Schedules like this one meet the conditions. -/
example : Disciplined 3 {} [.iterate 2 .none, .call 0 .begin, .go 2, .go 0, .go 2, .go 0, .exit 1] := by
  refine ⟨⟨by decide, fun i => rfl⟩, fun s h => ?_⟩
  cases h
  refine ⟨⟨by decide, fun _ => ⟨fun _ => rfl, fun h => by cases h⟩⟩, fun s h => ?_⟩
  cases h
  refine ⟨trivial, fun s h => ?_⟩
  cases h
  refine ⟨trivial, fun s h => ?_⟩
  cases h
  refine ⟨trivial, fun s h => ?_⟩
  cases h
  refine ⟨trivial, fun s h => ?_⟩
  cases h
  refine ⟨⟨by decide, rfl, fun i => ?_⟩, fun s h => trivial⟩
  rcases i with _ | _ | _ | i <;> rfl

/-- A thread that shows its own frame to a callback that allocates. -/
example : (runAll step {} ([.call 0 .begin, .go 0, .go 0, .go 0, .go 0, .go 0, .call 0 .finish, .go 0, .go 0, .go 0,
      .iterate 0 .alloc, .go 0, .go 0, .go 0, .go 0, .go 0, .go 0, .go 0])).map (fun s => (s.thr 0).pc) =
    .ok (.cbLock .alloc 0 []) := by
  decide +kernel

end Rpp.Props
