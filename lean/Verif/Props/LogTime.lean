import Verif.Proof.LogTime

/-!
# C172: the times in the log (`rpp/impl/log.cpp`)
-/

namespace Rpp.Props

open Rpp.LogTime Rpp.LogTime.Spec

/-- **C172.** What is shown are ten characters with the hour, the minute and the second, and they can be read off. -/
theorem C172_text {z : Zone} {x : Nat} {tm : Tm} (h : z x = some tm) : ∃ b, sysTimeString z x = .ok b ∧ b.length = 10 ∧
    (Valid tm → ∀ y tm', z y = some tm' → Valid tm' → (sysTimeString z y = .ok b ↔ tm' = tm)) := by
  refine ⟨strftime tm, sysTimeString_ok.2 ⟨tm, h, rfl⟩, rfl, fun hv y tm' h' hv' => ?_⟩
  rw [sysTimeString_ok]
  constructor
  · rintro ⟨tm'', h2, he⟩
    rw [h'] at h2
    cases h2
    obtain ⟨a, b, c⟩ := tm
    obtain ⟨a', b', c'⟩ := tm'
    unfold Valid at hv hv'
    dsimp only at hv hv'
    have he : two a = two a' ∧ two b = two b' ∧ two c = two c' := by
      simp only [strftime, two, List.cons_append, List.nil_append, List.cons.injEq, true_and, and_true] at he ⊢
      exact ⟨⟨he.1, he.2.1⟩, ⟨he.2.2.1, he.2.2.2.1⟩, he.2.2.2.2.1, he.2.2.2.2.2⟩
    rw [two_inj (by omega) (by omega) he.1, two_inj (by omega) (by omega) he.2.1, two_inj (by omega) (by omega) he.2.2]
  · rintro rfl
    exact ⟨tm', h', rfl⟩

/-- **C172.** For every schedule: the lines of a thread on the console are its calls in order, each with the time of the call, except that the last call
may not have got the lock yet. -/
theorem C172_console {z : Zone} {c : Nat} {es : List Ev} {s : State} (h : run z (init c) es = some (.ok s)) (t : Nat) :
    ∃ rest, linesOf t s.out ++ rest = (calls t c es).map (line z t) ∧ rest.length ≤ 1 ∧ (s.pc t = .idle → rest = []) := by
  have := out_run (t := t) es _ s h
  refine ⟨due z s t, by rw [this]; rfl, ?_, fun hp => by simp [due, hp]⟩
  unfold due
  split <;> simp

/-- **C172.** The lines of one thread are in the order of time. -/
theorem C172_thread_order (t c : Nat) (es : List Ev) : ((calls t c es).map Prod.fst).Pairwise (· ≤ ·) := (calls_mono t es c).2

/-- **C172.** Whatever the callbacks do: when the lock is free, the file has the lines of the console, by thread and message, in the same order. -/
theorem C172_messages {z : Zone} {c : Nat} {es : List Ev} {s : State} (h : run z (init c) es = some (.ok s)) (hl : s.lock = none) :
    s.file.map (fun l => (l.thread, l.msg)) = s.out.map fun l => (l.thread, l.msg) :=
  ((inv_run es _ s (inv_init c) h).free hl).2

/-- **C172**, if the callbacks call `sys_time_string` for no other time than the one they were given: when the lock is free, the file has the lines of the
console, with the same times. `_partial`: without this see `C172_file_false`. -/
theorem C172_file_partial {z : Zone} {c : Nat} {es : List Ev} {s : State} (h : run z (init c) es = some (.ok s)) (hl : s.lock = none)
    (hb : ∀ t x, Ev.back t (some x) ∉ es) : s.file = s.out :=
  (same_run es _ s hb ⟨inv_init c, fun _ => rfl, fun _ _ _ h => (by cases h)⟩ (fun _ _ _ h => (by cases h)) h).free hl

/-- **C172.** Nothing fails if `localtime_r` knows all times. -/
theorem C172_defined {z : Zone} (hz : ∀ x, z x ≠ none) {c : Nat} {es : List Ev} {r : Res State} (h : run z (init c) es = some r) : ∃ s, r = .ok s :=
  run_res hz es _ r h

/-- A clock without time zone, up to the year 2147485547. -/
def utc : Zone := fun x => if x < 67768036191676800 then some ⟨x / 3600 % 24, x / 60 % 60, x % 60⟩ else none

/-- **C172 fails.** A callback shows another time with `sys_time_string`: the file has that time, the console the right one. -/
theorem C172_file_false : ∃ s, run utc (init 3661) [.call 0 7, .enter 0, .back 0 (some 0), .leave 0] = some (.ok s) ∧
    s.out = [⟨0, "[01:01:01]".toList, 7⟩] ∧ s.file = [⟨0, "[00:00:00]".toList, 7⟩] :=
  ⟨_, rfl, by decide +kernel, by decide +kernel⟩

/-- **C172 fails.** Lines of different threads are not in the order of their times: the clock is read before the lock is taken. -/
theorem C172_order_false : ∃ s, run utc (init 3661) [.call 0 7, .tick 5, .call 1 8, .enter 1, .leave 1, .enter 0, .leave 0] = some (.ok s) ∧
    s.file = [⟨1, "[01:01:06]".toList, 8⟩, ⟨0, "[01:01:01]".toList, 7⟩] :=
  ⟨_, rfl, by decide +kernel⟩

/-- **C172 fails.** A time whose year does not fit has no values to show; and times a day apart are shown as the same. -/
theorem C172_text_false : sysTimeString utc (2 ^ 63 - 1) = .error .ub ∧ sysTimeString utc 1 = sysTimeString utc 86401 := by decide +kernel

/-! Runs that meet the hypotheses. -/

example : ∃ s, run utc (init 86399) [.call 0 7, .show 1 5, .enter 0, .back 0 none, .call 1 8, .tick 2, .leave 0, .enter 1, .call 0 9, .leave 1] = some (.ok s) ∧
    s.out = [⟨0, "[23:59:59]".toList, 7⟩, ⟨1, "[23:59:59]".toList, 8⟩] ∧ s.file = s.out ∧ s.lock = none ∧ s.pc 0 = .timed 86401 9 :=
  ⟨_, rfl, by decide +kernel, by decide +kernel, rfl, rfl⟩

example : run utc (init 0) [.call 0 7, .enter 0, .call 1 8, .enter 1] = none := rfl

example : Valid ⟨23, 59, 60⟩ ∧ strftime ⟨23, 59, 60⟩ = "[23:59:60]".toList ∧ utc 3661 = some ⟨1, 1, 1⟩ := by
  refine ⟨by unfold Valid; decide, by decide +kernel, by decide +kernel⟩

end Rpp.Props
