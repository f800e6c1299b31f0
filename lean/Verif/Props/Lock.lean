import Verif.Proof.Lock

/-!
# Properties: `Thread::Lock`
-/

namespace Rpp.Props

open Rpp.Lock Rpp.Spec.Lock

/-! ## C143: a `Lock` unlocks its mutex exactly once, when it ends -/

/-- Any number of threads, mutexes and `Lock` objects that are made, moved and ended in any order, under the conditions of
`Careful`: nothing undefined happens and no thread waits for itself, no two `Lock`s hold a mutex at the same time, each `Lock` that
has a mutex holds it locked, and a mutex is locked only while a `Lock` holds it. Partial: `Careful` does not let a `Lock` that
holds a mutex be assigned to, nor a `Lock` pass from one thread to another. -/
theorem C143_lock_partial (es : List (Nat × Op)) (hc : CarefulAll init es) :
    ∃ s, runAll step init es = .ok s ∧
      (∀ h h' m, Holds s h m → Holds s h' m → h = h') ∧
      (∀ h m, Holds s h m → s.owner m ≠ none) ∧
      (∀ m, s.owner m ≠ none → ∃ h, Holds s h m) := by
  obtain ⟨s, h1, hi⟩ := run_careful es inv_init hc
  refine ⟨s, h1, hi.one, fun h m hm hn => ?_, fun m hm => ?_⟩
  · obtain ⟨t, ht⟩ := hi.held h m hm
    rw [hn] at ht
    cases ht
  · cases ho : s.owner m with
    | none => exact absurd ho hm
    | some t => exact hi.some_ m t ho

/-- When every `Lock` has ended, every mutex can be locked again. -/
theorem C143_ended_partial (es : List (Nat × Op)) (hc : CarefulAll init es) :
    ∃ s, runAll step init es = .ok s ∧ ((∀ h, s.ref h = none) → ∀ t h m, ∃ s', step s (t, .make h m) = .ok s' ∧ Holds s' h m) := by
  obtain ⟨s, h1, hi⟩ := run_careful es inv_init hc
  refine ⟨s, h1, fun hn t h m => ?_⟩
  have ho : s.owner m = none := by
    cases ho : s.owner m with
    | none => rfl
    | some u =>
      obtain ⟨k, hk⟩ := hi.some_ m u ho
      rw [Holds, hn k] at hk
      cases hk
  refine ⟨({ s with owner := fun k => if k = m then some t else s.owner k } : St).put h (some (some m)), ?_, ?_⟩
  · unfold step
    simp only
    rw [if_pos (hn h)]
    unfold lock
    rw [ho]
  · simp only [Holds, put_ref, if_true]

/-- Two threads and two mutexes: a `Lock` is moved to a new one and to one that was moved from, the other thread waits. -/
def run₁ : List (Nat × Op) :=
  [(0, .make 0 0), (1, .make 9 0), (0, .make 1 1), (0, .moveNew 2 0), (0, .assign 0 2), (0, .drop 0), (0, .drop 2), (1, .make 9 0), (0, .drop 1), (1, .drop 9)]

/-- The conditions hold of it. -/
example : CarefulAll init run₁ := by
  refine ⟨⟨rfl, by simp [init]⟩, fun s1 h1 => ?_⟩
  cases h1
  refine ⟨⟨rfl, by simp [init, St.put]⟩, fun s2 h2 => ?_⟩
  cases h2
  refine ⟨⟨rfl, by simp [init, St.put]⟩, fun s3 h3 => ?_⟩
  cases h3
  refine ⟨⟨rfl, by simp [St.put], fun m hm => by cases hm; rfl⟩, fun s4 h4 => ?_⟩
  cases h4
  refine ⟨⟨rfl, by simp [St.put], fun m hm => by cases hm; rfl⟩, fun s5 h5 => ?_⟩
  cases h5
  refine ⟨⟨by simp [St.put], fun m hm => by cases hm; rfl⟩, fun s6 h6 => ?_⟩
  cases h6
  refine ⟨⟨by simp [St.put], fun m hm => by cases hm⟩, fun s7 h7 => ?_⟩
  cases h7
  refine ⟨⟨rfl, by simp [init, St.put]⟩, fun s8 h8 => ?_⟩
  cases h8
  refine ⟨⟨by simp [St.put], fun m hm => by cases hm; rfl⟩, fun s9 h9 => ?_⟩
  cases h9
  exact ⟨⟨by simp [St.put], fun m hm => by cases hm; rfl⟩, fun _ _ => trivial⟩

example : (runAll step init run₁).map (fun s : St => (List.range 10).map s.ref) = .ok (List.replicate 10 none) := by decide +kernel
example : (runAll step init (run₁.take 3)).map (fun s : St => (s.owner 0, s.owner 1, s.ref 9)) = .ok (some 0, some 0, none) := by
  decide +kernel
example : (runAll step init (run₁.take 8)).map (fun s : St => (s.owner 0, s.owner 1, s.ref 9)) = .ok (some 1, some 0, some (some 0)) := by
  decide +kernel

/-- Assigning to a `Lock` that holds a mutex, from another `Lock` or from itself: that mutex stays locked after any schedule
whatever, by any threads, so nobody can ever lock it again. -/
theorem C143_lost (es es' : List (Nat × Op)) (hc : CarefulAll init es) (s s' : St) (t h src m : Nat) (hs : runAll step init es = .ok s)
    (hm : Holds s h m) (hr : s.ref src ≠ none) (h' : runAll step init (es ++ (t, .assign h src) :: es') = .ok s') :
    s'.owner m ≠ none ∧ (∀ k, ¬ Holds s' k m) ∧ ∀ u k s'', step s' (u, .make k m) = .ok s'' → s'' = s' := by
  obtain ⟨q, hq, hi⟩ := run_careful es inv_init hc
  rw [hs] at hq
  cases hq
  rw [runAll_append step es _ init s hs] at h'
  obtain ⟨u, hu⟩ := hi.held h m hm
  cases hr' : s.ref src with
  | none => exact absurd hr' hr
  | some r =>
    have hst : step s (t, .assign h src) = .ok ((s.put h (some r)).put src (some none)) := by
      unfold step
      simp only
      rw [hr', show s.ref h = some (some m) from hm]
    rw [runAll, hst] at h'
    have hl : Lost ((s.put h (some r)).put src (some none)) m u := by
      refine ⟨hu, fun k hk => ?_⟩
      simp only [Holds, put_ref] at hk
      by_cases hks : k = src
      · rw [if_pos hks] at hk
        cases hk
      · rw [if_neg hks] at hk
        by_cases hkh : k = h
        · rw [if_pos hkh] at hk
          have : Holds s src m := by rw [Holds, hr', ← hk]
          exact hks (hkh.trans (hi.one h src m hm this))
        · rw [if_neg hkh] at hk
          exact hkh (hi.one k h m hk hm)
    have hl' := lost_run es' hl h'
    refine ⟨by rw [hl'.1]; simp, hl'.2, fun v k s'' hmk => ?_⟩
    unfold step at hmk
    simp only at hmk
    by_cases hk : s'.ref k = none
    · rw [if_pos hk] at hmk
      unfold lock at hmk
      rw [hl'.1] at hmk
      simp only at hmk
      by_cases huv : u = v
      · rw [if_pos huv] at hmk; cases hmk
      · rw [if_neg huv] at hmk; cases hmk; rfl
    · rw [if_neg hk] at hmk; cases hmk

/-- The property is false: a mutex is still locked when every `Lock` has ended, after an assignment to a `Lock` that holds it and
after an assignment of a `Lock` to itself; and a `Lock` that ends on another thread than it began is undefined. -/
theorem C143_false :
    (runAll step init [(0, .make 0 0), (0, .make 1 1), (0, .assign 0 1), (0, .drop 1), (0, .drop 0), (1, .make 2 0)]).map
      (fun s : St => (s.ref 0, s.ref 1, s.ref 2, s.owner 0, s.owner 1)) = .ok (none, none, none, some 0, none) ∧
    (runAll step init [(0, .make 0 0), (0, .assign 0 0), (0, .drop 0), (1, .make 2 0)]).map
      (fun s : St => (s.ref 0, s.ref 2, s.owner 0)) = .ok (none, none, some 0) ∧
    (runAll step init [(0, .make 0 0), (1, .drop 0)]).map (fun s : St => s.owner 0) = .error .ub := by
  refine ⟨?_, ?_, ?_⟩ <;> decide +kernel

end Rpp.Props
