import Verif.Proof.Then

/-!
# Theorems about `Task::then`

All schedules of the coroutine of the task, the coroutine of `then` and the end of the caller's full expression.
`Lasting` schedules are those in which the full expression does not end, as in `co_await t.then(f)` and
`t.then(f).block()`.
-/

namespace Rpp.Props
open Rpp Rpp.Then

/-- The full expression does not end. -/
def Lasting (es : List Ev) : Prop := ∀ e ∈ es, e ≠ .endExpr

/-- What `then` is for: whatever the schedule, nothing goes wrong and a result is that of `f` applied to the result
of the task. -/
def ThenWorks : Prop := ∀ (g : Nat → Nat) (v : Nat) (tmp : Bool) (es : List Ev),
  ∃ s, runAll (step g v tmp) St.init es = .ok s ∧ (s.pc = .fin → s.res = some (g v))

theorem then_inv (g : Nat → Nat) (v : Nat) (tmp : Bool) (es : List Ev) (hl : Lasting es) :
    ∃ s, runAll (step g v tmp) St.init es = .ok s ∧ Inv g v s :=
  runAll_inv_of (P := fun e => e ≠ Ev.endExpr) (fun _ e he I => step_inv I e he) es _ hl (init_inv g v)

/-- **C113** holds as long as the full expression lasts, and if it ends after `f` was called. `then` always
finishes when it and the task go on. Missing: full expressions that end earlier, see `C113_false`. -/
theorem C113_then_partial (g : Nat → Nat) (v : Nat) (tmp : Bool) (as bs : List Ev) (hl : Lasting as) :
    ∃ s, runAll (step g v tmp) St.init as = .ok s ∧ (s.pc = .fin → s.res = some (g v)) ∧
      (s.pc = .await ∨ s.pc = .fin → ∃ s', runAll (step g v tmp) s bs = .ok s' ∧
        (s'.pc = .fin → s'.res = some (g v))) ∧
      ∃ s', runAll (step g v tmp) s [.go, .go, .co, .co, .co, .go, .go, .go] = .ok s' ∧ s'.pc = .fin := by
  obtain ⟨s, h, I⟩ := then_inv g v tmp as hl
  refine ⟨s, h, fun hf => ?_, fun hf => ?_, ?_⟩
  · have := I.pc; rw [hf] at this; exact this.1
  · obtain ⟨s', h1, h2⟩ := runAll_inv (fun _ e I => step_late I e) bs s (I.late hf)
    refine ⟨s', h1, fun hf => ?_⟩
    have := h2.pc; rw [hf] at this; exact this
  · obtain ⟨i1, i2, i3, i4, i5, i6, i7, i8⟩ := I
    obtain ⟨word, val, frame, task, fn, ret, over, co, pc, arg, res⟩ := s
    simp only at i1 i2 i3 i4 i5 i6 i7 i8
    subst i1 i2 i3 i4
    cases co <;> cases word <;> cases pc <;> simp at i5 i6 i7 i8 <;>
      simp_all [runAll, step]

/-- **C113.** If the task is finished when `then` is called, `then` works whenever the full expression ends. -/
theorem C113_finished_task (g : Nat → Nat) (v : Nat) (tmp : Bool) (es : List Ev) :
    ∃ s, runAll (step g v tmp) { St.init with word := .done, val := some v, co := .fin } es = .ok s ∧
      (s.pc = .fin → s.res = some (g v)) := by
  obtain ⟨s', h1, h2⟩ := runAll_inv (I := Late g v) (fun _ e I => step_late I e) es
    { St.init with word := .done, val := some v, co := .fin } (by constructor <;> simp [St.init])
  refine ⟨s', h1, fun hf => ?_⟩
  have := h2.pc; rw [hf] at this; exact this

/-- If the full expression ends after `then` returned to the caller and before `f` was called, the program goes
wrong: destroying the temporary task ends the program while `then` waits for it, and otherwise the coroutine uses
the task or `f` after its end. -/
theorem C113_ends_early (g : Nat → Nat) (v : Nat) (tmp : Bool) (as : List Ev) (hl : Lasting as) (s : St)
    (h : runAll (step g v tmp) St.init as = .ok s) (hr : s.ret = true) (hp : s.pc ≠ .await ∧ s.pc ≠ .fin) :
    runAll (step g v tmp) s [.endExpr, .co, .co, .co, .go, .go] =
      .error (if tmp = true ∧ s.word = .cont then .die else .ub) := by
  obtain ⟨s1, h1, I⟩ := then_inv g v tmp as hl
  rw [h] at h1; cases h1
  obtain ⟨i1, i2, i3, i4, i5, i6, i7, i8⟩ := I
  obtain ⟨word, val, frame, task, fn, ret, over, co, pc, arg, res⟩ := s
  simp only at i1 i2 i3 i4 i5 i6 i7 i8 hr hp
  subst i1 i2 i3 i4 hr
  cases co <;> cases word <;> cases pc <;> simp at i5 i6 i7 i8 hp <;> cases tmp <;>
    simp_all [runAll, step]

/-- `auto r = t.then([](int x) -> Task<int> { ... });` where `t` takes a while: undefined; and with
`make().then(...)` the program ends. -/
theorem C113_false : ¬ ThenWorks ∧
    runAll (step (· + 1) 5 false) St.init [.go, .go, .endExpr, .co, .co, .co, .go, .go] = .error .ub ∧
    runAll (step (· + 1) 5 true) St.init [.go, .go, .endExpr] = .error .die := by
  refine ⟨fun h => ?_, by decide +kernel, by decide +kernel⟩
  obtain ⟨s, h1, _⟩ := h (· + 1) 5 true [.go, .go, .endExpr]
  rw [show runAll (step (· + 1) 5 true) St.init [.go, .go, .endExpr] = .error .die by decide +kernel] at h1
  cases h1

/-- `co_await t.then(f)` with a task that finishes later. -/
example : (runAll (step (· + 1) 5 true) St.init [.go, .co, .go, .co, .co, .go, .go, .go, .endExpr]).map
    (fun s => (s.res, s.frame, s.over)) = .ok (some 6, false, true) := by decide +kernel

end Rpp.Props
