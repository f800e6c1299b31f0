import Verif.Proof.Function

/-!
# `Function`: theorems
-/

namespace Rpp.Props
open Rpp.Fun Rpp.Spec

variable {σ A R : Type}

/-- C95: a program with functions behaves as one whose variables hold a closure or nothing: it dies exactly on a call
of an empty one, and all calls have the same results, with the state that the earlier calls left. -/
theorem C95_calls (call : Nat → σ → A → σ × R) (ops : List (Op σ A)) :
    (∀ e, funRun call ⟨[], [], 0⟩ ops = .error e → run call St.init ops = .error e) ∧
    (∀ a, funRun call ⟨[], [], 0⟩ ops = .ok a → ∃ s, run call St.init ops = .ok s ∧ s.out = a.out) := by
  have h := run_ok call ops (inv_init (σ := σ) (R := R))
  constructor
  · intro e he
    rw [he] at h
    exact h
  · intro a ha
    rw [ha] at h
    obtain ⟨s, h1, I⟩ := h
    exact ⟨s, h1, I.out.symm⟩

theorem fun_inv {call : Nat → σ → A → σ × R} {ops : List (Op σ A)} {s : St σ R}
    (h : run call St.init ops = .ok s) : ∃ a, funRun call ⟨[], [], 0⟩ ops = .ok a ∧ Inv s a := by
  have h' := run_ok call ops (inv_init (σ := σ) (R := R))
  rcases hb : funRun call ⟨[], [], 0⟩ ops with e | a
  · rw [hb] at h'
    dsimp only at h'
    rw [h] at h'
    cases h'
  · rw [hb] at h'
    obtain ⟨s', h1, I⟩ := h'
    rw [h] at h1
    cases h1
    exact ⟨a, rfl, I⟩

/-- C95: what a closure captured is released at most once, never while a function still holds it, and exactly once
when all functions are gone. -/
theorem C95_released_once (call : Nat → σ → A → σ × R) (ops : List (Op σ A)) (s : St σ R)
    (h : run call St.init ops = .ok s) :
    s.dtors.Nodup ∧ (∀ (v id ty : Nat) (st : σ) (vt : Option Nat), s.vars[v]? = some (some ⟨.obj id ty st, vt⟩) → id ∉ s.dtors) ∧
    ((∀ x ∈ s.vars, x = none) → s.dtors.Perm (List.range s.made)) := by
  obtain ⟨a, _, I⟩ := fun_inv h
  refine ⟨?_, ?_, ?_⟩
  · rw [List.nodup_iff_count]
    intro b
    have := I.acct b
    split at this <;> omega
  · intro v id ty st vt hv hd
    have := I.acct id
    have h1 : 0 < s.dtors.count id := List.count_pos_iff.2 hd
    have h2 : 0 < (live s).count id := by
      apply List.count_pos_iff.2
      unfold live
      exact List.mem_flatMap.2 ⟨_, List.mem_of_getElem? hv, by simp [idsO_obj]⟩
    split at this <;> omega
  · intro ho
    rw [List.perm_iff_count]
    intro b
    have := I.acct b
    have hl : (live s).count b = 0 := by
      apply List.count_eq_zero.2
      intro hm
      obtain ⟨x, hx, hb⟩ := List.mem_flatMap.1 hm
      rw [ho x hx] at hb
      simp [idsO_none] at hb
    by_cases hb : b < s.made
    · rw [if_pos hb] at this
      have h1 : 0 < (List.range s.made).count b := List.count_pos_iff.2 (List.mem_range.2 hb)
      have h2 := List.nodup_iff_count.1 (List.nodup_range (n := s.made)) b
      omega
    · rw [if_neg hb] at this
      rw [List.count_eq_zero.2 (fun q => hb (List.mem_range.1 q))]
      omega

/-- C95: but the object that was moved from is never destroyed: when all functions are gone, as many objects as
closures were moved have had a constructor and no destructor. -/
theorem C95_moved_from_never_destroyed (call : Nat → σ → A → σ × R) (ops : List (Op σ A)) (s : St σ R)
    (h : run call St.init ops = .ok s) (ho : ∀ x ∈ s.vars, x = none) :
    ∃ a, funRun call ⟨[], [], 0⟩ ops = .ok a ∧ s.built = s.dtors.length + a.moves := by
  obtain ⟨a, ha, I⟩ := fun_inv h
  refine ⟨a, ha, ?_⟩
  have := ((C95_released_once call ops s h).2.2 ho).length_eq
  rw [List.length_range] at this
  rw [this]
  exact I.built

/-- The full statement of C95 for objects: once the functions are gone each object was destroyed. -/
def FunctionObjects : Prop := ∀ (ops : List (Op Nat Nat)) (s : St Nat Nat),
  run (fun _ st a => (st + a, st)) St.init ops = .ok s → (∀ x ∈ s.vars, x = none) → s.built = s.dtors.length

theorem C95_false : ¬ FunctionObjects := by
  intro h
  have := h [.make 0 5, .move 0, .leave 0, .leave 1] ⟨[none, none], 1, 2, [0], []⟩ (by decide +kernel)
    (by decide)
  revert this
  decide

/-- Two closures of different types, called, swapped through a third variable, assigned to itself. -/
def funProgram : List (Op Nat Nat) :=
  [.make 0 5, .make 1 7, .invoke 0 1, .move 0, .assign 0 1, .assign 1 2, .invoke 0 2, .invoke 1 3, .invoke 1 4,
   .assign 0 0, .make 0 1, .assign 1 3]

example : (run (fun t st a => (st + a, 100 * t + st)) St.init funProgram).map
    (fun s => (s.out, s.dtors, s.made, s.built)) = .ok ([5, 107, 6, 9], [1, 0], 3, 7) := by decide +kernel

example : (funRun (fun t st a => (st + a, 100 * t + st)) ⟨[], [], 0⟩ funProgram).map
    (fun s => (s.vars, s.out, s.moves)) =
      .ok ([some none, some (some (0, 1)), some none, some none], [5, 107, 6, 9], 4) := by decide +kernel

example : run (fun t st a => (st + a, 100 * t + st)) St.init (funProgram ++ [.invoke 0 0]) = .error .die := by
  decide +kernel

example : (run (fun t st a => (st + a, 100 * t + st)) St.init
    (funProgram ++ [.leave 0, .leave 1, .leave 2, .leave 3])).map (fun s => (s.vars, s.dtors)) =
      .ok ([none, none, none, none], [1, 0, 2]) := by decide +kernel

end Rpp.Props
