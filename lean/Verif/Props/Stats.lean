import Verif.Proof.Stats

/-!
# Properties of the allocation statistics (`rpp/impl/profile.cpp`, `rpp/impl/alloc.cpp`, `rpp/alloc1.h`)
-/

namespace Rpp.Props
open Rpp Rpp.Stats StatsSpec

variable {N : Type} [DecidableEq N]

/-- **C60.** Any number of threads allocate and free blocks through any number of named allocators, in every interleaving of the steps
of `alloc` and `free`; `malloc` may give an address again as soon as the system's `free` was called. While fewer than
2^63 bytes are asked for in total: `Profile` never warns; for each name, the current size is the sum of the sizes
of the blocks in use, the numbers of allocations and frees differ by the number of blocks in use and the total
sizes by the current size; the high-water mark is the largest current size there has been. -/
theorem C60_stats (es : List (Ev N)) (h : asked es < 2 ^ 63) :
    ∃ s, runAll step ({} : St N) es = .ok s ∧ s.warns = 0 ∧ ∀ n,
      (s.prof n).cur = bytes s n ∧
      (s.prof n).allocates - (s.prof n).frees = count s n ∧
      (s.prof n).allocSize - (s.prof n).freeSize = bytes s n ∧
      (∀ k t, runAll step ({} : St N) (es.take k) = .ok t → (bytes t n : Int) ≤ (s.prof n).high) ∧
      (∃ k t, runAll step ({} : St N) (es.take k) = .ok t ∧ (s.prof n).high = bytes t n) := by
  obtain ⟨s, h1, h2, h3⟩ := run_inv es 0 {} (by omega) init_inv
  refine ⟨s, h1, h2.warns, fun n => ?_⟩
  have := h2.num n
  refine ⟨this.cur, by have := this.count; omega, by have := this.size; omega, (h3 n).1, ?_⟩
  rcases (h3 n).2.2 with h4 | h4
  · exact ⟨0, {}, rfl, by rw [h4]; simp [bytes]⟩
  · exact h4

/-- **C60.** When everything was freed, `finalize` reports no leak for any name and none in total. -/
theorem C60_balanced (es : List (Ev N)) (h : asked es < 2 ^ 63) :
    ∃ s, runAll step ({} : St N) es = .ok s ∧ (s.blks = [] → Stats.finalize s = (fun _ => none, none)) := by
  obtain ⟨s, h1, h2, _⟩ := run_inv es 0 {} (by omega) init_inv
  refine ⟨s, h1, fun hb => ?_⟩
  unfold Stats.finalize
  have hn : s.net = 0 := by rw [h2.net, hb]; simp
  have hc : ∀ n, (s.prof n).cur = 0 := fun n => by rw [(h2.num n).cur]; unfold bytes; rw [hb]; simp
  simp [hn, hc]

/-- **C60.** Nothing stays unreported: when no thread is inside of `alloc` or `free`, `finalize` reports the number of blocks that are
left, and for each name the bytes in use. -/
theorem C60_leaks (es : List (Ev N)) (h : asked es < 2 ^ 63) :
    ∃ s, runAll step ({} : St N) es = .ok s ∧ ((∀ b ∈ s.blks, b.phase = .ready) →
      (Stats.finalize s).2 = (if s.blks = [] then none else some (s.blks.length : Int)) ∧
      ∀ n, (Stats.finalize s).1 n = if bytes s n = 0 then none else some (bytes s n : Int)) := by
  obtain ⟨s, h1, h2, _⟩ := run_inv es 0 {} (by omega) init_inv
  refine ⟨s, h1, fun hr => ?_⟩
  have hn : s.net = s.blks.length := by
    rw [h2.net]
    generalize s.blks = l at hr
    induction l with
    | nil => simp
    | cons c l ih =>
      have h3 := ih (fun d hd => hr d (.tail _ hd))
      have h4 : isNet c = true := by unfold isNet; simp [hr c (.head _)]
      simp only [List.map_cons, List.sum_cons, h4, if_true, List.length_cons]
      omega
  unfold Stats.finalize
  refine ⟨?_, fun n => ?_⟩
  · rw [hn]
    cases hl : s.blks with
    | nil => simp
    | cons c l => simp; omega
  · have := (h2.num n).cur
    dsimp only
    rw [this]
    by_cases c : bytes s n = 0 <;> simp [c]

/-- Several threads and two names: the second block is given the address of the first one as soon as that was freed; one block
is left at the end. -/
def demoStats : List (Ev Nat) := [.malloc 8 100 0 true, .next 0, .next 0, .free 0, .next 0, .next 0,
  .malloc 8 30 1 true, .malloc 16 50 0 true, .next 1, .next 1, .next 0, .next 0, .free 1, .next 1, .next 1]

example : asked demoStats < 2 ^ 63 := by decide

example : (runAll step ({} : St Nat) demoStats).map (fun s => (s.blks.map (·.addr),
      [s.net, s.warns, (s.prof 0).high, (s.prof 0).cur, (s.prof 1).cur, (s.prof 1).high, (s.prof 0).allocates, (s.prof 0).frees],
      [(Stats.finalize s).1 1, (Stats.finalize s).2])) =
    .ok ([8], [1, 0, 100, 0, 30, 30, 2, 2], [some 30, some 1]) := by decide +kernel

end Rpp.Props
