import Verif.Proof.EventOs

/-!
# `Async::Event` on macOS and Windows, `Thread::sleep` (C107–C110)
-/

namespace Rpp.Props
open Rpp

/-! ## C107: `wait_any` on macOS

Full statement: `wait_any` on events with different descriptors returns the index of one that is signalled, and
waits for ever only if none is. -/

/-- Of several events only the last one is waited for: if it is signalled an index of its descriptor is returned,
whatever the others do; otherwise `wait_any` waits, whatever the others do. `_partial`: the other events, see
`C107_others_missed`. -/
theorem C107_last_partial (fds : List (Option Nat)) (fd : Nat) (ready : Nat → Bool) :
    (ready fd = true ∧ ∃ i, EventMac.waitAny (fds ++ [some fd]) ready = .ok i ∧ (fds ++ [some fd])[i]? = some (some fd)) ∨
    (ready fd = false ∧ EventMac.waitAny (fds ++ [some fd]) ready = .error .hang) := by
  unfold EventMac.waitAny
  rw [EventMac.fill_last]
  dsimp only
  cases h : ready fd with
  | false => exact .inr ⟨rfl, by simp⟩
  | true =>
    have hi : (fds ++ [some fd]).idxOf (some fd) < (fds ++ [some fd]).length := List.idxOf_lt_length_of_mem (by simp)
    refine .inl ⟨rfl, (fds ++ [some fd]).idxOf (some fd), by rw [if_pos rfl, if_pos hi], ?_⟩
    rw [List.getElem?_eq_getElem hi, List.getElem_idxOf hi]

/-- **C107 is false of the code**: an event that is signalled but not the last one is never noticed, however many others
are signalled with it. -/
theorem C107_others_missed (fds : List (Option Nat)) (fd : Nat) :
    EventMac.waitAny (fds ++ [some fd]) (fun x => x ≠ fd) = .error .hang := by
  rcases C107_last_partial fds fd (fun x => x ≠ fd) with ⟨h, _⟩ | ⟨_, h⟩
  · simp at h
  · exact h

/-- The remaining lists: without any event the structure passed to the system is not initialised, and if the last event has no
descriptor the process ends, whichever others are ready. -/
theorem C107_no_event (fds : List (Option Nat)) (ready : Nat → Bool) :
    EventMac.waitAny [] ready = .error .ub ∧ EventMac.waitAny (fds ++ [none]) ready = .error .die := by
  refine ⟨rfl, ?_⟩
  unfold EventMac.waitAny
  rw [EventMac.fill_last]

example : EventMac.waitAny [some 3, some 8, some 5] (fun x => x = 5) = .ok 2 := by decide +kernel
/-- The pool's own event comes first in its list: with one event pending, new events and shutdown are not noticed. -/
example : EventMac.waitAny [some 3, some 8] (fun x => x = 3) = .error .hang := by decide +kernel
/-- An event that was moved from comes last. -/
example : EventMac.waitAny [some 3, none] (fun _ => true) = .error .die := by decide +kernel

/-! ## C108: signalling on macOS

Full statement: as for C81: the event is ready exactly if the last operation was `signal`, in any order, and `try_wait`
tells which. -/

/-- For every sequence in which no prefix has more resets than signals and which never has more than `cap` signals
outstanding, the event is ready exactly if there are more signals than resets: a `reset` undoes one `signal`.
`_partial`: this is what C108 asks only if each `signal` is followed by a `reset` (second part). -/
theorem C108_count_partial (cap : Nat) (bs : List Bool)
    (h : ∀ pre post, bs = pre ++ post → pre.count false ≤ pre.count true ∧ pre.count true ≤ cap + pre.count false) :
    EventMac.runOps cap 0 bs = .ok (bs.count true - bs.count false) ∧
    ((∀ pre post, bs = pre ++ true :: post → pre.count true = pre.count false) →
      ∀ c, EventMac.runOps cap 0 bs = .ok c → (c ≠ 0 ↔ bs.getLast? = some true)) := by
  have key : ∀ (bs : List Bool) (c : Nat), (∀ pre post, bs = pre ++ post →
      pre.count false ≤ c + pre.count true ∧ c + pre.count true ≤ cap + pre.count false) →
      EventMac.runOps cap c bs = .ok (c + bs.count true - bs.count false) := by
    intro bs
    induction bs with
    | nil => intro c _; simp [EventMac.runOps]
    | cons b bs ih =>
      intro c h
      have h1 := h [b] bs rfl
      cases b with
      | true =>
        simp at h1
        have := ih (c + 1) (by
          intro pre post e
          have := h (true :: pre) post (by rw [e]; rfl)
          simp at this
          omega)
        simp only [EventMac.runOps, EventMac.signal, if_true]
        rw [if_pos (by omega)]
        dsimp only
        rw [this]
        simp
        omega
      | false =>
        simp at h1
        have := ih (c - 1) (by
          intro pre post e
          have := h (false :: pre) post (by rw [e]; rfl)
          simp at this
          omega)
        simp only [EventMac.runOps, EventMac.reset, Bool.false_eq_true, if_false]
        rw [if_neg (by omega)]
        dsimp only
        rw [this]
        simp
        omega
  have hk := key bs 0 (by intro pre post e; simpa using h pre post e)
  rw [Nat.zero_add] at hk
  refine ⟨hk, fun ha c hc => ?_⟩
  rw [hk] at hc
  cases hc
  rcases List.eq_nil_or_concat bs with rfl | ⟨l, b, rfl⟩
  · simp
  · have hl := (h l [b] (by simp)).1
    have hb := (h (l ++ [b]) [] (by simp)).1
    simp only [List.concat_eq_append] at *
    cases b with
    | true =>
      have := ha l [] rfl
      simp [List.count_append]
      omega
    | false =>
      simp [List.count_append]
      simp [List.count_append] at hb
      -- at most one signal is outstanding before the last reset
      have hone : ∀ (k : List Bool), (∀ pre post, k = pre ++ true :: post → pre.count true = pre.count false) →
          (∀ pre post, k = pre ++ post → pre.count false ≤ pre.count true) → k.count true ≤ k.count false + 1 := by
        intro k
        generalize hk : k.length = m
        induction m generalizing k with
        | zero => intro _ _; rw [List.length_eq_zero_iff] at hk; simp [hk]
        | succ m ih =>
          intro h1 h2
          rcases List.eq_nil_or_concat k with rfl | ⟨k, b, rfl⟩
          · cases hk
          simp only [List.concat_eq_append] at *
          cases b with
          | true =>
            have := h1 k [] rfl
            simp [List.count_append]; omega
          | false =>
            have := ih k (by simpa using hk) (fun pre post e => h1 pre (post ++ [false]) (by rw [e]; simp))
              (fun pre post e => h2 pre (post ++ [false]) (by rw [e]; simp))
            simp [List.count_append]; omega
      have := hone l (fun pre post e => ha pre (post ++ [false]) (by rw [e]; simp))
        (fun pre post e => (h pre (post ++ [false]) (by rw [e]; simp)).1)
      omega

example : EventMac.runOps 65536 0 [true, false, true, true, false] = .ok 1 := by decide +kernel

/-- In general: the calls all return exactly if no prefix has more resets than signals and none has more than `cap` signals
outstanding. -/
theorem C108_exact (cap : Nat) (bs : List Bool) : (∃ c, EventMac.runOps cap 0 bs = .ok c) ↔
    ∀ pre post, bs = pre ++ post → pre.count false ≤ pre.count true ∧ pre.count true ≤ cap + pre.count false := by
  constructor
  · rintro ⟨c, h⟩
    have key : ∀ (bs : List Bool) (c c' : Nat), c ≤ cap → EventMac.runOps cap c bs = .ok c' → ∀ pre post, bs = pre ++ post →
        pre.count false ≤ c + pre.count true ∧ c + pre.count true ≤ cap + pre.count false := by
      intro bs
      induction bs with
      | nil =>
        intro c c' hc _ pre post e
        obtain ⟨rfl, _⟩ := List.append_eq_nil_iff.1 e.symm
        simpa using hc
      | cons b bs ih =>
        intro c c' hc h pre post e
        cases pre with
        | nil => simpa using hc
        | cons x pre =>
          cases e
          cases b with
          | true =>
            simp only [EventMac.runOps, EventMac.signal, if_true] at h
            by_cases hlt : c < cap
            · rw [if_pos hlt] at h
              have := ih (c + 1) c' (by omega) h pre post rfl
              simp
              omega
            · rw [if_neg hlt] at h
              cases h
          | false =>
            simp only [EventMac.runOps, EventMac.reset, Bool.false_eq_true, if_false] at h
            by_cases h0 : c = 0
            · rw [if_pos h0] at h
              cases h
            · rw [if_neg h0] at h
              have := ih (c - 1) c' (by omega) h pre post rfl
              simp
              omega
    intro pre post e
    have := key bs 0 c (Nat.zero_le _) h pre post e
    omega
  · intro h
    exact ⟨_, (C108_count_partial cap bs h).1⟩

/-- **C108 is false of the code**: after two signals and a reset the event is still ready; resetting an event that is not
signalled waits for ever; so does the signal after `cap` signals; and `try_wait` denies every signal. -/
theorem C108_false (cap : Nat) (h : 2 ≤ cap) : EventMac.runOps cap 0 [true, true, false] = .ok 1 ∧
    EventMac.runOps cap 0 [false] = .error .hang ∧
    EventMac.runOps cap 0 (List.replicate (cap + 1) true) = .error .hang ∧ ∀ c, EventMac.tryWait c = false := by
  refine ⟨?_, rfl, ?_, fun _ => rfl⟩
  · have h0 : 0 < cap := by omega
    have h1 : 1 < cap := by omega
    simp [EventMac.runOps, EventMac.signal, EventMac.reset, h0, h1]
  · have key : ∀ (k c : Nat), c + k = cap → EventMac.runOps cap c (List.replicate (k + 1) true) = .error .hang := by
      intro k
      induction k with
      | zero =>
        intro c hc
        have : ¬ c < cap := by omega
        simp [EventMac.runOps, EventMac.signal, List.replicate, this]
      | succ k ih =>
        intro c hc
        rw [List.replicate_succ]
        simp only [EventMac.runOps, EventMac.signal, if_true]
        rw [if_pos (by omega)]
        exact ih (c + 1) (by omega)
    exact key cap 0 (by omega)

/-! ## C109: events on Windows

Full statement: as C80 and C81: `wait_any` returns the index of an event that is signalled and waits only if none is; an
event is signalled exactly if the last operation was `signal`, which `try_wait` tells. -/

/-- For up to 64 events: the least index of a signalled one. `try_wait` tells the last operation. `_partial`: more events
and moved-from events, see `C109_false`. -/
theorem C109_event_partial (hs : List Nat) (h0 : hs ≠ []) (h : hs.length ≤ 64) (ready : Nat → Bool) :
    ((∃ i x, EventWin.waitAny (hs.map some) ready = .ok i ∧ hs[i]? = some x ∧ ready x = true ∧
        ∀ j y, j < i → hs[j]? = some y → ready y = false) ∨
      EventWin.waitAny (hs.map some) ready = .error .hang ∧ ∀ x ∈ hs, ready x = false) ∧
    ∀ c bs b, EventWin.tryWait (EventWin.runOps c (bs ++ [b])) = b := by
  refine ⟨?_, fun c bs b => by simp [EventWin.runOps, EventWin.tryWait, EventWin.op]⟩
  unfold EventWin.waitAny
  rw [if_neg (by simpa using h0), if_neg (by simp [EventWin.maxWait]; omega)]
  cases hf : (hs.map some).findIdx? (fun h => match h with | some x => ready x | none => false) with
  | none =>
    refine .inr ⟨rfl, fun x hx => ?_⟩
    rw [List.findIdx?_eq_none_iff] at hf
    exact hf (some x) (List.mem_map.2 ⟨x, hx, rfl⟩)
  | some i =>
    rw [List.findIdx?_eq_some_iff_getElem] at hf
    obtain ⟨hi, h1, h2⟩ := hf
    have hi' : i < hs.length := by simpa using hi
    simp only [List.getElem_map] at h1 h2
    refine .inl ⟨i, hs[i], rfl, List.getElem?_eq_getElem hi', h1, fun j y hj hy => ?_⟩
    have := h2 j hj
    rw [List.getElem?_eq_getElem (by omega)] at hy
    cases hy
    simpa using this

example : EventWin.waitAny [some 4, some 7, some 5] (fun h => h = 5 || h = 7) = .ok 1 := by decide +kernel

/-- **C109 is false of the code**: with more than 64 events, or a moved-from one, the program ends, signalled or not. For
the pool this means more than 63 events waited for at a time. -/
theorem C109_false (ready : Nat → Bool) (hs : List (Option Nat)) (h : 64 < hs.length ∨ none ∈ hs) :
    EventWin.waitAny hs ready = .error .die := by
  unfold EventWin.waitAny
  split
  · rfl
  · rw [if_pos (by simpa [EventWin.maxWait] using h)]

example : EventWin.waitAny ((List.range 65).map some) (fun _ => true) = .error .die := by decide +kernel

/-! ## C110: `Thread::sleep`

Full statement: `sleep(ms)` sleeps for at least `ms` milliseconds and then returns. -/

/-- On Linux and macOS exactly for less than 2^32 microseconds (about 71 minutes), on Windows exactly for less than
2^32 − 1 milliseconds (about 49 days). `_partial`: longer times, see `C110_false`. -/
theorem C110_sleep_partial (ms : Nat) :
    (ms < 2 ^ 64 → (ms * 1000 ≤ Sleep.posixMicros ms ↔ ms * 1000 < 2 ^ 32)) ∧
    ((∃ t, Sleep.winMillis ms = .ok t ∧ ms ≤ t) ↔ ms < 2 ^ 32 - 1) := by
  constructor
  · intro h
    unfold Sleep.posixMicros wmul
    constructor
    · intro h1
      have := Nat.mod_lt (ms * 1000 % 2 ^ 64) (show 0 < 2 ^ 32 by omega)
      omega
    · intro h1
      omega
  · unfold Sleep.winMillis
    constructor
    · rintro ⟨t, h1, h2⟩
      split at h1
      · cases h1
      · cases h1; omega
    · intro h
      rw [if_neg (by omega)]
      exact ⟨_, rfl, by omega⟩

/-- **C110 is false of the code**: 72 minutes end after 25 seconds. On Windows whole multiples of 2^32 milliseconds (49.7 days) are
left out, and if one millisecond is missing to the next, the call never returns. -/
theorem C110_false : Sleep.posixMicros (72 * 60 * 1000) = 25032704 ∧
    (∀ k r, r < 2 ^ 32 - 1 → Sleep.winMillis (k * 2 ^ 32 + r) = .ok r) ∧
    ∀ k, Sleep.winMillis (k * 2 ^ 32 + (2 ^ 32 - 1)) = .error .hang := by
  refine ⟨by decide +kernel, fun k r hr => ?_, fun k => ?_⟩
  · unfold Sleep.winMillis
    rw [if_neg (by omega), show (k * 2 ^ 32 + r) % 2 ^ 32 = r by omega]
  · unfold Sleep.winMillis
    rw [if_pos (by omega)]

/-- A time of 49.7 days and a second is one second. -/
example : Sleep.winMillis (2 ^ 32 + 1000) = .ok 1000 := by decide +kernel

end Rpp.Props
