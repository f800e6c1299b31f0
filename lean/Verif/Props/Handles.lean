import Verif.Proof.Handles

/-!
# C173: handles of coroutines (`rpp/std/coroutine.h`, `rpp/async.h`)
-/

namespace Rpp.Props

open Rpp.Handles Rpp.Handles.Spec

/-- **C173.** For promises of alignment up to 16: the handle of a frame leads to the promise, and the promise to the frame. For others see
`C173_promise_off`. -/
theorem C173_promise_partial {f x : Addr} {al : Nat} (ha : al ∣ 16) (h : PromiseAt f al x) : Handle.promise ⟨f⟩ = x ∧ fromPromise x = ⟨f⟩ := by
  rw [promise_eq, fromPromise_eq, promiseAt_small ha h]
  exact ⟨rfl, by rw [BitVec.add_sub_cancel]⟩

/-- **C173.** For a promise of any alignment above 16 both are wrong, by the difference to 16. -/
theorem C173_promise_off {f x : Addr} {al : Nat} (ha : 16 < al) (h64 : al < 2 ^ 64) (h : PromiseAt f al x) :
    Handle.promise ⟨f⟩ + BitVec.ofNat 64 (al - 16) = x ∧ (fromPromise x).ptr = f + BitVec.ofNat 64 (al - 16) ∧
    Handle.promise ⟨f⟩ ≠ x ∧ fromPromise x ≠ ⟨f⟩ := by
  have e : BitVec.ofNat 64 al = 16#64 + BitVec.ofNat 64 (al - 16) := by
    rw [← BitVec.ofNat_add]
    congr 1
    omega
  have hne : BitVec.ofNat 64 (al - 16) ≠ 0#64 := by
    intro h0
    have := congrArg BitVec.toNat h0
    rw [BitVec.toNat_ofNat, BitVec.toNat_ofNat] at this
    omega
  rw [promise_eq, fromPromise_eq, promiseAt_large ha h, e]
  generalize BitVec.ofNat 64 (al - 16) = k at hne
  refine ⟨by grind, ?_, fun h0 => hne (by grind), fun h0 => hne ?_⟩
  · show f + (16#64 + k) - 16#64 = f + k
    grind
  · have h1 : f + (16#64 + k) - 16#64 = f := congrArg Handle.ptr h0
    grind

/-- **C173.** A promise is found again from the handle that was made of it, whatever its alignment. -/
theorem C173_inverse (x : Addr) (h : Handle) : (fromPromise x).promise = x ∧ fromPromise h.promise = h := by
  rw [promise_eq, fromPromise_eq, fromPromise_eq, promise_eq]
  exact ⟨BitVec.sub_add_cancel _ _, by rw [BitVec.add_sub_cancel]⟩

/-- **C173.** Handles are equal exactly if they are of the same frame; a handle of a promise in a frame counts as true. -/
theorem C173_eq {f g x y : Addr} {al bl : Nat} (ha : al ∣ 16) (hb : bl ∣ 16) (hx : PromiseAt f al x) (hy : PromiseAt g bl y) (hf : FrameAddr f) :
    ((fromPromise x).eq (fromPromise y) = true ↔ f = g) ∧ (fromPromise x).bool = true := by
  rw [(C173_promise_partial ha hx).2, (C173_promise_partial hb hy).2]
  have hf0 : ¬ f = 0#64 := hf.1
  simp [Handle.eq, Handle.bool, hf0]

/-- **C173**, for alignments up to 16: a `Task` resumes the coroutine that it was made by. -/
theorem C173_resume_partial {w : World} {f x : Addr} {al : Nat} (ha : al ∣ 16) (h : PromiseAt f al x) (hs : w.suspended f = true) :
    (taskOf x).resume w = .ok f := by
  simp [taskOf, (C173_promise_partial ha h).2, Handle.resume, hs]

/-- **C173**, for alignments up to 16: the coroutine `c` that waits for `f` with `co_await` is the one that is resumed when `f` ends, and the state is
`TASK_DONE` then. The state word has room for addresses: none of them is one of the constants. -/
theorem C173_handover_partial {w : World} {f x c : Addr} {al : Nat} (ha : al ∣ 16) (h : PromiseAt f al x) (hc : FrameAddr c)
    (hst : w.state x = some taskStart) (hs : w.suspended c = true) :
    ∃ w', awaitSuspend w (taskOf x) ⟨c⟩ = .ok (true, w') ∧
      ∃ w'', finalSuspend w' al ⟨f⟩ = .ok (.resumed c, w'') ∧ w''.state x = some taskDone ∧ w''.suspended = w.suspended := by
  obtain ⟨h1, h2⟩ := C173_promise_partial ha h
  have hp : (taskOf x).promise = x := (C173_inverse x ⟨0⟩).1
  obtain ⟨c1, c2, c3⟩ := frame_state hc
  refine ⟨{ w with state := fun y => if y = x then some c else w.state y }, ?_,
    { w with state := fun y => if y = x then some taskDone else if y = x then some c else w.state y }, ?_, by simp, rfl⟩
  · simp [awaitSuspend, hp, hst]
  · simp [finalSuspend, h1, c1, c3, Handle.resume, hs, bind, Except.bind, pure, Except.pure]

/-- **C173**, for alignments up to 16: a coroutine `c` that waits for `f` with `co_await` after `f` has ended is not suspended: it goes on at once, and nothing
is left behind for it in the state. -/
theorem C173_ended_first_partial {w : World} {f x c : Addr} {al : Nat} (ha : al ∣ 16) (h : PromiseAt f al x) (hst : w.state x = some taskStart) :
    ∃ w', finalSuspend w al ⟨f⟩ = .ok (.noop, w') ∧ w'.state x = some taskDone ∧ w'.suspended = w.suspended ∧
      awaitSuspend w' (taskOf x) ⟨c⟩ = .ok (false, w') := by
  obtain ⟨h1, h2⟩ := C173_promise_partial ha h
  have hp : (taskOf x).promise = x := (C173_inverse x ⟨0⟩).1
  refine ⟨{ w with state := fun y => if y = x then some taskDone else w.state y }, ?_, by simp, rfl, ?_⟩
  · simp [finalSuspend, h1, hst, taskStart, taskDone, taskAbandoned]
    rfl
  · simp [awaitSuspend, hp, taskStart, taskDone]

/-- **C173**, for alignments up to 16: if the `Task` was destroyed first, the end of the coroutine destroys its frame, and no other one; if the coroutine
ended first, `~Task` does. -/
theorem C173_abandon_partial {w : World} {f x : Addr} {al : Nat} (h0 : 0 < al) (ha : al ∣ 16) (h : PromiseAt f al x) (hf : FrameAddr f)
    (hst : w.state x = some taskStart) (hs : w.suspended f = true) :
    (∃ w' w'', dropTask w al (taskOf x) = .ok w' ∧ finalSuspend w' al ⟨f⟩ = .ok (.noop, w'') ∧
      ∀ g, w''.suspended g = (if g = f then false else w.suspended g) ∧ (g ≠ x → w''.state g = w.state g) ∧ w''.state x = none) ∧
    (∃ w' w'', finalSuspend w al ⟨f⟩ = .ok (.noop, w') ∧ dropTask w' al (taskOf x) = .ok w'' ∧
      ∀ g, w''.suspended g = (if g = f then false else w.suspended g) ∧ (g ≠ x → w''.state g = w.state g) ∧ w''.state x = none) := by
  obtain ⟨h1, h2⟩ := C173_promise_partial ha h
  have hp : Handle.promise ⟨f⟩ = x := h1
  have hd : f + BitVec.ofNat 64 (distance al) = x := by
    rw [← h1, promise_eq, promiseAt_small ha (distance_at (f := f) h0)]
  have n1 : ¬ taskStart = taskDone := by decide
  have n2 : ¬ taskStart = taskAbandoned := by decide
  have hf0 : ¬ f = 0#64 := hf.1
  have hb : Handle.bool ⟨f⟩ = true := by simp [Handle.bool, hf0]
  constructor
  · refine ⟨{ w with state := fun y => if y = x then some taskAbandoned else w.state y },
      { suspended := fun y => if y = f then false else w.suspended y,
        state := fun y => if y = x then none else if y = x then some taskDone else if y = x then some taskAbandoned else w.state y }, ?_, ?_, ?_⟩
    · simp [dropTask, taskOf, h2, hb, hp, hst, n1]
    · simp [finalSuspend, hp, Handle.destroy, hs, hd, bind, Except.bind, pure, Except.pure]
    · intro g
      refine ⟨rfl, fun hg => by simp [hg], by simp⟩
  · refine ⟨{ w with state := fun y => if y = x then some taskDone else w.state y },
      { suspended := fun y => if y = f then false else w.suspended y,
        state := fun y => if y = x then none else if y = x then some taskAbandoned else if y = x then some taskDone else w.state y }, ?_, ?_, ?_⟩
    · simp [finalSuspend, hp, hst, n2, pure, Except.pure]
    · simp [dropTask, taskOf, h2, hb, hp, Handle.destroy, hs, hd]
    · intro g
      refine ⟨rfl, fun hg => by simp [hg], by simp⟩

/-- A frame at 4096 that is suspended, with a promise of alignment 32 whose state word is at 4128. -/
def wide : World := { suspended := fun f => decide (f = 4096), state := fun x => if x = 4128 then some taskStart else none }

/-- **C173 fails** for a result of alignment 32: the promise is at 4128, but the `Task` resumes at 4112, where no frame begins, and the end of the coroutine
looks for the state at 4112. -/
theorem C173_false : PromiseAt 4096 32 4128 ∧ taskOf 4128 = ⟨4112⟩ ∧ (taskOf 4128).resume wide = .error .ub ∧
    finalSuspend wide 32 ⟨4096⟩ = .error .ub ∧ (taskOf 4128).promise = 4128 := by
  refine ⟨⟨32, by decide, by decide, by decide, fun d h1 h2 => Nat.le_of_dvd (by omega) h2⟩, by decide, by decide, rfl, by decide⟩

/-! Runs that meet the hypotheses. -/

/-- Frames at 4096 and 8192, a promise of alignment 8 at 4112. -/
def narrow : World := { suspended := fun f => decide (f = 4096) || decide (f = 8192), state := fun x => if x = 4112 then some taskStart else none }

theorem at4112 : PromiseAt 4096 8 4112 := ⟨16, by decide, by decide, by decide, fun d h1 _ => h1⟩

example : (taskOf 4112).resume narrow = .ok 4096 := C173_resume_partial (al := 8) (by decide) at4112 (by decide)

example := C173_handover_partial (w := narrow) (c := 8192) (al := 8) (by decide) at4112 ⟨by decide, by decide⟩ (by decide) (by decide)

example := C173_ended_first_partial (w := narrow) (c := 8192) (al := 8) (by decide) at4112 (by decide)

example := C173_abandon_partial (w := narrow) (al := 8) (by decide) (by decide) at4112 ⟨by decide, by decide⟩ (by decide) (by decide)

end Rpp.Props
