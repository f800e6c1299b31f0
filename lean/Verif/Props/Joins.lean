import Verif.Proof.Joins

/-!
# C171: thread ids, and threads that join each other (`rpp/thread.h`, `rpp/pos/thread_pos.cpp`, `rpp/w32/thread_w32.cpp`)
-/

namespace Rpp.Props

open Rpp.Joins Rpp.Joins.Spec

/-- **C171**, on Linux and Windows: of two threads that the system knows, the id of one (asked from outside) is never that of the other (asked from
inside), and that of the same thread is the same. `_partial`: not on macOS, see `C171_ids_false`; and not for threads that are gone, see `C171_reuse`. -/
theorem C171_ids_partial {p : Platform} (hp : p ≠ .mac) {s : State} (h : Reach p s) {i j : Nat} {a b : Th} (ha : s[i]? = some a)
    (hb : s[j]? = some b) (hua : a.inUse = true) (hub : b.inUse = true) : sysId p a = thisId p b ↔ i = j := by
  constructor
  · intro he
    by_cases hij : i = j
    · exact hij
    · have := reach_uniq h i j a b ha hb hij hua hub
      cases p with
      | linux => exact absurd he this.1
      | win => exact absurd he this.2
      | mac => exact absurd rfl hp
  · rintro rfl
    rw [ha] at hb
    cases hb
    cases p with
    | linux => rfl
    | win => rfl
    | mac => exact absurd rfl hp

/-- **C171.** On each system the ids that the threads see themselves are different while the system knows them. -/
theorem C171_this {p : Platform} {s : State} (h : Reach p s) {i j : Nat} {a b : Th} (ha : s[i]? = some a) (hb : s[j]? = some b)
    (hua : a.inUse = true) (hub : b.inUse = true) (he : thisId p a = thisId p b) : i = j := by
  by_cases hij : i = j
  · exact hij
  · have := reach_uniq h i j a b ha hb hij hua hub
    cases p with
    | linux => exact absurd he this.1
    | mac => exact absurd he this.1
    | win => exact absurd he this.2

/-- **C171.** On macOS `Thread::id()` is different for any two threads, those gone included. -/
theorem C171_mac {s : State} (h : Reach .mac s) {i j : Nat} {a b : Th} (ha : s[i]? = some a) (hb : s[j]? = some b)
    (he : sysId .mac a = sysId .mac b) : i = j := by
  obtain ⟨hd, t, es, h⟩ := h
  have hn : (s.map Th.tid).Nodup := run_inv (fun s s' e => mac_step) es _ s (by simp [init]) h
  have e1 : (s.map Th.tid)[i]? = some a.tid := by rw [List.getElem?_map, ha]; rfl
  have e2 : (s.map Th.tid)[j]? = some a.tid := by
    rw [List.getElem?_map, hb]
    show some b.tid = some a.tid
    rw [show b.tid = a.tid from he.symm]
  obtain ⟨hi, f1⟩ := List.getElem?_eq_some_iff.1 e1
  obtain ⟨hj, f2⟩ := List.getElem?_eq_some_iff.1 e2
  rw [List.Nodup, List.pairwise_iff_getElem] at hn
  rcases Nat.lt_trichotomy i j with hij | hij | hij
  · exact absurd (f1.trans f2.symm) (hn i j hi hj hij)
  · exact hij
  · exact absurd (f2.trans f1.symm) (hn j i hj hi hij)

/-- **C171.** A thread that joins itself is stopped by the check, and no other one is. -/
theorem C171_self {p : Platform} {s : State} (h : Reach p s) {t u : Nat} {r : Res State} (hr : step p s (.join t u) = some r) :
    r = .error .die ↔ t = u := by
  have hu := reach_uniq h
  simp only [step] at hr
  split at hr
  · rename_i a b ha hb
    split at hr
    · rename_i hc
      simp only [Bool.and_eq_true] at hc
      obtain ⟨a', ha', hs⟩ := does_iff.1 hc.1.1
      rw [ha] at ha'
      cases ha'
      have hua : a.inUse = true := by simp [Th.inUse, hs]
      have hub : b.inUse = true := by simp [Th.inUse, hc.1.2]
      constructor
      · rintro rfl
        by_cases hij : t = u
        · exact hij
        · exfalso
          have := hu t u a b ha hb hij hua hub
          have hsj : selfJoin p a b = false := by
            cases p with
            | linux => simpa [selfJoin] using this.1
            | mac => simpa [selfJoin] using this.1
            | win => exact decide_eq_false (Ne.symm this.2)
          rw [hsj] at hr
          simp at hr
      · rintro rfl
        rw [ha] at hb
        cases hb
        have hsj : selfJoin p a a = true := by cases p <;> simp [selfJoin, sysId, thisId]
        rw [hsj] at hr
        simp at hr
        exact hr.symm
    · cases hr
  · cases hr

/-- **C171**, if the threads can be ranked so that each joins only threads of higher rank (for example, only threads started after itself): they are
never stuck. `_partial`: without a rank see `C171_stuck_false`. -/
theorem C171_live_partial {p : Platform} {rank : Nat → Nat} {h i : Nat} {es : List Ev} {s : State} (hr : run p (init h i) es = some (.ok s))
    (hk : Ranked rank es) : Live p s ∨ ∀ a ∈ s, a.stage = .finished := by
  have hw := run_wait es _ s hk (fun t a u ha hs => by rw [(init_get ha).2] at hs; cases hs) hr
  by_cases hf : ∀ a ∈ s, a.stage = .finished
  · exact .inr hf
  · left
    obtain ⟨a, hm, hs⟩ : ∃ a, a ∈ s ∧ a.stage ≠ .finished := by
      refine Classical.byContradiction fun hc => hf fun a ha => Classical.byContradiction fun hs => hc ⟨a, ha, hs⟩
    obtain ⟨t, ht⟩ := List.getElem?_of_mem hm
    obtain ⟨B, hB⟩ := rank_bound rank s.length
    exact wait_live hw B hB _ t a (Nat.le_refl _) ht hs

/-- **C171 fails.** Two threads with each other's `Thread`, and `main` waiting for one of them: nothing can happen any more, and nobody has returned. On
each system. -/
theorem C171_stuck_false (p : Platform) : ∃ s, run p (init 10 100) [.start 0 11 101, .start 0 12 102, .join 1 2, .join 2 1] = some (.ok s) ∧
    (∀ a ∈ s.tail, a.stage ≠ .finished ∧ a.stage ≠ .running) ∧
    run p s [.exit 0] = some (.ok (s.set 0 ⟨10, 100, .finished, false⟩)) ∧ ¬ Live p (s.set 0 ⟨10, 100, .finished, false⟩) := by
  refine ⟨[⟨10, 100, .running, false⟩, ⟨11, 101, .waiting 2, true⟩, ⟨12, 102, .waiting 1, true⟩], by cases p <;> decide +kernel, by decide,
    by cases p <;> decide +kernel, ?_⟩
  rintro ⟨e, r, h⟩
  have hd : ∀ t, does ([⟨10, 100, .finished, false⟩, ⟨11, 101, .waiting 2, true⟩, ⟨12, 102, .waiting 1, true⟩] : State) t .running = false := by
    intro t
    rw [Bool.eq_false_iff, Ne, does_iff]
    rintro ⟨a, ha, hs⟩
    have : ∀ a ∈ ([⟨10, 100, .finished, false⟩, ⟨11, 101, .waiting 2, true⟩, ⟨12, 102, .waiting 1, true⟩] : State), a.stage ≠ .running := by decide
    exact this a (List.mem_of_getElem? ha) hs
  simp only [List.set_cons_zero] at h
  cases e with
  | start t hd' i => simp [step, hd] at h
  | join t u =>
    simp only [step, hd, Bool.false_and] at h
    split at h <;> simp at h
  | wake t =>
    match t with
    | 0 => simp [step] at h
    | 1 => simp [step] at h
    | 2 => simp [step] at h
    | t + 3 => simp [step] at h
  | detach t u =>
    simp only [step, hd, Bool.false_and] at h
    split at h <;> simp at h
  | exit t =>
    simp only [step, hd] at h
    split at h <;> simp at h

/-- **C171 fails** on macOS: `Thread::id()` is not what `this_id()` gives inside of the thread, and it can be what `this_id()` gives in another one. -/
theorem C171_ids_false : ∃ s a b, run .mac (init 10 100) [.start 0 11 10] = some (.ok s) ∧ s[0]? = some a ∧ s[1]? = some b ∧
    sysId .mac b ≠ thisId .mac b ∧ sysId .mac b = thisId .mac a :=
  ⟨[⟨10, 100, .running, false⟩, ⟨11, 10, .running, true⟩], _, _, by decide +kernel, rfl, rfl, by decide, by decide⟩

/-- **C171.** On Linux and Windows a thread that is gone can have had the id of a thread that runs. -/
theorem C171_reuse {p : Platform} (hp : p ≠ .mac) : ∃ s a b, run p (init 10 100) [.start 0 11 101, .exit 1, .join 0 1, .wake 0, .start 0 11 101] = some (.ok s) ∧
    s[1]? = some a ∧ s[2]? = some b ∧ sysId p a = sysId p b :=
  ⟨[⟨10, 100, .running, false⟩, ⟨11, 101, .finished, false⟩, ⟨11, 101, .running, true⟩], _, _,
    by cases p <;> first | decide +kernel | exact absurd rfl hp, rfl, rfl, by cases p <;> rfl⟩

/-! Runs that meet the hypotheses. -/

example : ∃ s, run .linux (init 10 100) [.start 0 11 101, .start 1 12 102, .join 0 1, .join 1 2, .exit 2, .wake 1, .exit 1, .wake 0] = some (.ok s) ∧
    s.map Th.stage = [.running, .finished, .finished] ∧ s.map Th.held = [false, false, false] :=
  ⟨_, rfl, by decide, by decide⟩

example : Ranked (fun t => t) [.start 0 11 101, .start 1 12 102, .join 0 1, .join 1 2] := by
  intro t u h
  simp at h
  rcases h with ⟨rfl, rfl⟩ | ⟨rfl, rfl⟩ <;> decide

/-- A thread that was given its own `Thread` joins itself. -/
example : run .mac (init 10 100) [.start 0 11 101, .join 1 1] = some (.error .die) ∧ run .win (init 10 100) [.start 0 11 101, .join 1 1] = some (.error .die) ∧
    run .win (init 10 100) [.start 0 11 101, .exit 1, .start 0 12 102, .join 2 1, .wake 2, .exit 2] =
      some (.ok [⟨10, 100, .running, false⟩, ⟨11, 101, .finished, false⟩, ⟨12, 102, .finished, true⟩]) := by decide +kernel

/-- No thread is started with a handle in use. -/
example : run .linux (init 10 100) [.start 0 11 101, .exit 1, .start 0 11 102] = none ∧ run .linux (init 10 100) [.start 0 11 101, .detach 0 1, .start 0 11 102] = none ∧
    (run .linux (init 10 100) [.start 0 11 101, .detach 0 1, .exit 1, .start 0 11 102]).isSome = true := by decide +kernel

end Rpp.Props
