import Verif.Proof.Settings

/-!
# C135: priority and affinity of threads, and the cores of a pool

Full statement: `set_priority` gives the thread a priority, a higher one for a higher level; `set_affinity` with a core below
`hardware_threads` binds the thread to that core; a pool can be made on every machine, with each of its threads on a core of its own
(where the cores are, without the system: C59).
-/

namespace Rpp.Props
open Rpp.Settings

/-- **C135, partial.** The priorities chosen are between the bounds and do not get smaller with the level; they are different for
different levels exactly if the bounds are at least 4 apart. -/
theorem C135_choose_partial (min max : Int) (h : min ≤ max) :
    (∀ p, min ≤ choose min max p ∧ choose min max p ≤ max) ∧
    (∀ p q, p.rank ≤ q.rank → choose min max p ≤ choose min max q) ∧
    ((∀ p q, p.rank < q.rank → choose min max p < choose min max q) ↔ 4 ≤ max - min) := by
  have e2 : (max - min).tdiv 2 = (max - min) / 2 := Int.tdiv_eq_ediv_of_nonneg (by omega)
  have e4 : (max - min).tdiv 4 = (max - min) / 4 := Int.tdiv_eq_ediv_of_nonneg (by omega)
  refine ⟨fun p => ?_, fun p q hr => ?_, ⟨fun hs => ?_, fun h4 p q hr => ?_⟩⟩
  · cases p <;> simp only [choose, e2, e4] <;> omega
  · cases p <;> cases q <;> simp only [choose, e2, e4, Level.rank] at hr ⊢ <;> omega
  · have h1 := hs .normal .high (by decide)
    simp only [choose, e2, e4] at h1
    omega
  · cases p <;> cases q <;> simp only [choose, e2, e4, Level.rank] at hr ⊢ <;> omega

/-- **C135 is false on Linux:** the bounds used are those of the default policy, which both are 0. For a thread with that policy all
levels are the same, and nothing changes; with a real-time policy the program ends, whatever the level and the permissions. -/
theorem C135_linux_false (permit : Int → Bool) (hp : permit 0 = true) (t : Sched) (p : Level) :
    (t.policy = .other → t.prio = 0 → linux permit t p = .ok t) ∧
    (t.policy ≠ .other → linux permit t p = .error .die) := by
  have h0 : choose attrPolicy.bounds.1 attrPolicy.bounds.2 p = 0 := by cases p <;> rfl
  obtain ⟨pol, prio⟩ := t
  refine ⟨fun h1 h2 => ?_, fun h => ?_⟩
  · cases h1; cases h2
    unfold linux
    dsimp only
    rw [h0, if_neg (by decide), if_pos hp]
    rfl
  · cases pol
    · exact absurd rfl h
    · unfold linux
      dsimp only
      rw [h0, if_pos (by decide)]
    · unfold linux
      dsimp only
      rw [h0, if_pos (by decide)]

/-- **C135, partial.** On macOS and with permission the levels are in order if the bounds are 15 and 47; with others the two middle
levels leave the priority as it is. -/
theorem C135_macos_partial (permit : Int → Bool) (hp : ∀ k, permit k = true) (min max prio : Int) :
    (min = 15 → max = 47 → ∀ p q a b, macos min max permit prio p = .ok a → macos min max permit prio q = .ok b →
      15 ≤ a ∧ a ≤ 47 ∧ (a < b ↔ p.rank < q.rank)) ∧
    (¬ (min = 15 ∧ max = 47) → ∀ p, p = .normal ∨ p = .high → macos min max permit prio p = .ok prio) ∧
    macos min max permit prio .low = .ok min ∧ macos min max permit prio .critical = .ok max := by
  refine ⟨fun h1 h2 p q a b ha hb => ?_, fun h p hpq => ?_, by simp [macos, hp], by simp [macos, hp]⟩
  · subst h1 h2
    cases p <;> cases q <;> simp [macos, hp] at ha hb <;> subst ha hb <;> decide
  · rcases hpq with rfl | rfl <;> simp [macos, hp, h]

/-- **C135** for Windows, where `SetThreadPriority` takes seven values (its documentation): if these are permitted, the levels are in
order, the values are among the seven, and there is no warning; if nothing is permitted, there is one, and the priority stays. -/
theorem C135_windows (permit : Int → Bool) (hp : ∀ k ∈ [-15, -2, -1, 0, 1, 2, 15], permit k = true) (prio : Int) (p q : Level) :
    ((windows permit prio p).1 < (windows permit prio q).1 ↔ p.rank < q.rank) ∧
    (windows permit prio p).1 ∈ [-15, -2, -1, 0, 1, 2, 15] ∧ (windows permit prio p).2 = false ∧
    windows (fun _ => false) prio p = (prio, true) := by
  have h1 := hp (-2) (by decide)
  have h2 := hp 0 (by decide)
  have h3 := hp 2 (by decide)
  have h4 := hp 15 (by decide)
  cases p <;> cases q <;> simp [windows, h1, h2, h3, h4, Level.rank]

/-- **C135, partial.** On Linux a thread is bound to the core, or the program ends: it ends exactly if the core is not below
`hardware_threads`, not among the first 1024, or the thread may not run on it. -/
theorem C135_affinity_partial (hw : Nat) (allowed : Nat → Bool) (core : Nat) :
    (core < hw → core < 1024 → allowed core = true →
      ∃ s, affinityLinux hw allowed core = .ok s ∧ ∀ c, s c = true ↔ c = core) ∧
    (¬ (core < hw ∧ core < 1024 ∧ allowed core = true) → affinityLinux hw allowed core = .error .die) := by
  refine ⟨fun h1 h2 h3 => ?_, fun h => ?_⟩
  · refine ⟨fun c => c = core ∧ allowed c, by simp [affinityLinux, h1, h2, h3], fun c => ?_⟩
    simp only [decide_eq_true_eq]
    exact ⟨fun h => h.1, fun h => ⟨h, h ▸ h3⟩⟩
  · unfold affinityLinux
    split
    · rw [if_neg (fun h' => h ⟨by assumption, h'⟩)]
    · rfl

/-- **C135, partial.** On Windows it is bound to the core or there is a warning and nothing changes, always from core 64 on. -/
theorem C135_affinity_windows (hw : Nat) (allowed now : Nat → Bool) (core : Nat) (h : core < hw) :
    (core < 64 → allowed core = true →
      ∃ s, affinityWindows hw allowed now core = .ok (s, false) ∧ ∀ c, s c = true ↔ c = core) ∧
    (¬ (core < 64 ∧ allowed core = true) → affinityWindows hw allowed now core = .ok (now, true)) := by
  refine ⟨fun h1 h2 => ⟨fun c => c = core, ?_, fun c => by simp⟩, fun hn => ?_⟩
  · simp [affinityWindows, h, h2]
    omega
  · unfold affinityWindows
    rw [if_pos h]
    split
    · rfl
    · rw [if_neg (fun ha => hn ⟨by omega, ha⟩)]

/-- **C135, partial.** On a machine with at most 65 cores, all but the last of which the threads may run on, a pool is made: the thread
`i` runs on its core only. Otherwise making it ends the program. -/
theorem C135_pool_partial (hw : Nat) (allowed : Nat → Bool) :
    (hw ≤ 65 → (∀ c, c + 1 < hw → allowed c = true) →
      ∃ ts, pool hw allowed = .ok ts ∧ ts.length = hw - 1 ∧
        ∀ (i : Nat) (s : Nat → Bool), ts[i]? = some s → ∃ core, core < hw - 1 ∧ (∀ c, s c = true ↔ c = core) ∧
          ∀ (j : Nat) (r : Nat → Bool), ts[j]? = some r → r core = true → j = i) ∧
    (65 < hw ∨ (∃ c, c + 1 < hw ∧ allowed c = false) → pool hw allowed = .error .die) := by
  refine ⟨fun h1 h2 => ?_, fun h => ?_⟩
  · refine ⟨(List.range (hw - 1)).map (fun i c => decide (c = place hw i ∧ allowed c)), ?_, by simp, fun i s hs => ?_⟩
    · unfold pool
      dsimp only
      rw [if_pos (by omega)]
      refine mapM_ok _ _ _ fun i hi => ?_
      have hi := List.mem_range.1 hi
      have hl := (place_onto (h := hw) (c := place hw i)).1 ⟨i, hi, rfl⟩
      unfold affinityLinux
      rw [if_pos (by omega), if_pos ⟨by omega, h2 _ (by omega)⟩]
    · rw [List.getElem?_map, Option.map_eq_some_iff] at hs
      obtain ⟨k, hk, rfl⟩ := hs
      obtain ⟨hkl, hk⟩ := List.getElem?_eq_some_iff.1 hk
      rw [List.getElem_range] at hk
      subst hk
      rw [List.length_range] at hkl
      have hl := (place_onto (h := hw) (c := place hw i)).1 ⟨i, hkl, rfl⟩
      refine ⟨place hw i, hl, fun c => ?_, fun j r hr hc => ?_⟩
      · simp only [decide_eq_true_eq]
        exact ⟨fun h => h.1, fun h => ⟨h, by rw [h]; exact h2 _ (by omega)⟩⟩
      · rw [List.getElem?_map, Option.map_eq_some_iff] at hr
        obtain ⟨k, hk, rfl⟩ := hr
        obtain ⟨hkl', hk⟩ := List.getElem?_eq_some_iff.1 hk
        rw [List.getElem_range] at hk
        subst hk
        rw [List.length_range] at hkl'
        simp only [decide_eq_true_eq] at hc
        exact (place_inj hkl hkl' hc.1).symm
  · unfold pool
    dsimp only
    split
    · rename_i hn
      obtain ⟨c, hc, ha⟩ : ∃ c, c + 1 < hw ∧ allowed c = false := by
        rcases h with h | h
        · omega
        · exact h
      obtain ⟨i, hi, e⟩ := (place_onto (h := hw) (c := c)).2 (by omega)
      refine mapM_die _ _ i (List.mem_range.2 hi) ?_ fun b _ => ?_
      · rw [e]
        unfold affinityLinux
        rw [if_pos (by omega), if_neg (by simp [ha])]
      · unfold affinityLinux
        split
        · split
          · exact .inr ⟨_, rfl⟩
          · exact .inl rfl
        · exact .inl rfl
    · rfl

/-- Priorities 1 to 99 give 1, 50, 74, 99. -/
example : [Level.low, .normal, .high, .critical].map (choose 1 99) = [1, 50, 74, 99] := by decide +kernel

/-- A thread with real-time priority 10 asking for the normal level. -/
example : linux (fun _ => true) ⟨.fifo, 10⟩ .normal = .error .die ∧ linux (fun _ => true) ⟨.other, 0⟩ .critical = .ok ⟨.other, 0⟩ := by
  decide +kernel

/-- Eight cores: 0, 2, 4, 6, 1, 3, 5. -/
example : (List.range 7).map (place 8) = [0, 2, 4, 6, 1, 3, 5] := by decide +kernel

/-- Three cores are online of which core 1 is not one: the pool ends the program. With cores 0, 1 and 3 it is made. -/
example : (pool 3 (fun c => c ∈ [0, 2, 3])).map (·.length) = .error .die ∧ (pool 3 (fun c => c ∈ [0, 1, 3])).map (·.length) = .ok 2 ∧
    (pool 66 (fun _ => true)).map (·.length) = .error .die := by decide +kernel

end Rpp.Props
