import Verif.Proof.RegionCo
import Verif.Props.Region

/-!
# Regions in coroutines

`Nested 127 [] seg` says that the stretch `seg` of a coroutine between two suspensions closes all the scopes it
opens, in order.
-/

namespace Rpp.Props
open Rpp Rpp.RegionCo

/-- **C138, partial.** If no coroutine suspends within a region, then whatever threads take up which
coroutines, in whatever order, no check of the allocator fails; and when the schedule has run, no thread has an
open scope, and all have given back what they took from the system. Full statement: the same for coroutines
whose scopes are nested, wherever they suspend. Missing because false: suspensions within a region. -/
theorem C138_coroutines_partial {lim : Nat} (hlim : lim < 2 ^ 62) (cos : List (List (List Act)))
    (hn : ∀ co ∈ cos, ∀ seg ∈ co, Nested 127 [] seg) (es : List (Nat × Nat)) :
    RegionCo.run lim (Sys.init cos) es = .error .oom ∨
    ∃ s out, RegionCo.run lim (Sys.init cos) es = .ok (s, out) ∧ ∀ t, (s.thread t).chunks = Reg.init.chunks ∧
      (s.thread t).size = 0 ∧ (s.thread t).depth = 0 ∧
      ∀ id, 0 < id → id < (s.thread t).fresh → id ∈ (s.thread t).freed := by
  rcases run_nested hlim es (Sys.init cos) (fun _ => Reg.Run.start) hn with h | ⟨s, out, h, hi⟩
  · exact Or.inl h
  · exact Or.inr ⟨s, out, h, fun t => C36_all_returned hlim (hi t) rfl⟩

/-- **C138, partial.** In the same circumstances, at every point `as` of the next stretch `as ++ rest` of a
coroutine, on whatever thread `t`, the blocks it holds are memory that has not been given back and do not
overlap. -/
theorem C138_memory_partial {lim : Nat} (hlim : lim < 2 ^ 62) (cos : List (List (List Act)))
    (hn : ∀ co ∈ cos, ∀ seg ∈ co, Nested 127 [] seg) (es : List (Nat × Nat)) {s : Sys} {out : List (Nat × Nat)}
    (hr : RegionCo.run lim (Sys.init cos) es = .ok (s, out)) (t : Nat) {as rest : List Act}
    (ha : Nested 127 [] (as ++ rest)) {r : Reg} {mem : List (Nat × Nat)}
    (he : stretch lim (s.thread t) as = .ok (r, mem)) :
    (∀ b ∈ (holding [] as mem).flatten, b.chunk ∉ r.freed ∧
      ∃ c ∈ r.chunks, c.id = b.chunk ∧ b.off + b.size ≤ c.used ∧ c.used ≤ c.size) ∧
    (holding [] as mem).flatten.Pairwise Spec.MBlock.Disjoint := by
  rcases run_nested hlim es (Sys.init cos) (fun _ => Reg.Run.start) hn with h | ⟨s', out', h, hi⟩
  · rw [hr] at h; cases h
  · rw [hr] at h
    cases h
    obtain ⟨sc', h1, h2⟩ := stretch_holds hlim as rest 127 [] (s.thread t) r [] mem (hi t) rfl ha he
    have := C35_valid_partial hlim h1
    have e : Reg.allBlocks (sc' ++ [⟨0, [], Reg.init.chunks, 0⟩]) = (holding [] as mem).flatten := by
      rw [show ([] : List (List Spec.MBlock)) = List.map Reg.Scope.blocks [] from rfl, ← h2]
      simp [Reg.allBlocks, List.flatMap]
    rw [e] at this
    exact this

example : (stretch (2 ^ 40) Reg.init [.begin 7, .alloc 7 8, .begin 8, .alloc 8 2000, .alloc 8 4]).map (fun r =>
    holding [] [.begin 7, .alloc 7 8, .begin 8, .alloc 8 2000, .alloc 8 4] r.2) =
    .ok [[⟨1, 2000, 4⟩, ⟨1, 0, 2000⟩], [⟨0, 0, 8⟩]] := by decide +kernel

/-- Two coroutines on two threads, each suspending between regions. -/
example : (RegionCo.run (2 ^ 40) (Sys.init [[[.begin 7, .alloc 7 8, .begin 8, .alloc 8 2000, .fin 8, .fin 7], [.begin 9, .fin 9]],
      [[.begin 7, .alloc 7 16, .fin 7], [.begin 7, .alloc 7 4, .fin 7]]])
      [(0, 0), (0, 1), (1, 1), (1, 0)]).map (fun r => (r.2, r.1.cos, (r.1.thread 0).freed)) =
      .ok ([(0, 0), (1, 0), (0, 0), (0, 0)], [[], []], [1]) ∧
    (∀ co ∈ [[[Act.begin 7, .alloc 7 8, .begin 8, .alloc 8 2000, .fin 8, .fin 7], [.begin 9, .fin 9]],
      [[.begin 7, .alloc 7 16, .fin 7], [.begin 7, .alloc 7 4, .fin 7]]], ∀ seg ∈ co, Nested 127 [] seg) := by
  refine ⟨by decide +kernel, ?_⟩
  intro co hco seg hseg
  simp only [List.mem_cons, List.not_mem_nil, or_false] at hco
  rcases hco with rfl | rfl <;> simp only [List.mem_cons, List.not_mem_nil, or_false] at hseg <;>
    rcases hseg with rfl | rfl <;> simp [Nested]

/-- **C138 is false of the code**: a coroutine that suspended within a region and is taken up by a thread that
has none open fails a check, both when it leaves the region and when it allocates in it (every region has a
brand other than 0). -/
theorem C138_other_thread_false {lim : Nat} (hlim : lim < 2 ^ 62) {s : Reg} {c : Reg.Scope} (h : Reg.Run lim s [c])
    (b n : Nat) (as : List Act) :
    stretch lim s (.fin b :: as) = .error .die ∧ (b ≠ 0 → stretch lim s (.alloc b n :: as) = .error .die) := by
  have hb : c.brand = 0 := (h.inv hlim).base c rfl
  refine ⟨?_, fun h0 => ?_⟩
  · have ea : act lim s (.fin b) = .error .die := by unfold act; dsimp only; rw [C37_end_outside hlim h b]; rfl
    unfold stretch; rw [ea]
  · have ea : act lim s (.alloc b n) = .error .die := by
      unfold act; dsimp only; rw [(C37_wrong_brand hlim h (by rw [hb]; exact h0) n).1]; rfl
    unfold stretch; rw [ea]

/-- **C138 is false of the code** on one thread: if another coroutine opens a region in the meantime, the first one
fails a check when it leaves its own. -/
theorem C138_other_region_false :
    (RegionCo.run (2 ^ 40) (Sys.init [[[.begin 7, .alloc 7 8], [.fin 7]], [[.begin 9, .alloc 9 8], [.fin 9]]])
      [(0, 0), (0, 1), (0, 0)]).map (fun r => r.2) = .error .die := by
  decide +kernel

/-- **C138 is false of the code** silently, if both run the same code: the brand is that of the place in the
source, so that no check fails when the first coroutine leaves its region. What is given back is the memory
of the second, which gets the same eight bytes again while it still holds them. -/
theorem C138_same_code_false :
    (RegionCo.run (2 ^ 40) (Sys.init [[[.begin 7, .alloc 7 8], [.fin 7]], [[.begin 7, .alloc 7 8], [.alloc 7 8, .fin 7]]])
      [(0, 0), (0, 1), (0, 0), (0, 1)]).map (fun r => (r.2, r.1.cos)) =
      .ok ([(0, 0), (0, 8), (0, 8)], [[], []]) := by
  decide +kernel

end Rpp.Props
