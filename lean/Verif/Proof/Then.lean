import Verif.Model.Then
import Verif.Proof.Sched

namespace Rpp
namespace Then

/-- While the full expression lasts. -/
structure Inv (g : Nat → Nat) (v : Nat) (s : St) : Prop where
  frame : s.frame = true
  task : s.task = true
  fn : s.fn = true
  over : s.over = false
  co : match s.co with
    | .run => s.val = none ∧ (s.word = .start ∨ s.word = .cont)
    | .stored => s.val = some v ∧ (s.word = .start ∨ s.word = .cont)
    | .resume => s.val = some v ∧ s.word = .done ∧ s.pc = .suspended
    | .destroy => False
    | .fin => s.val = some v ∧ s.word = .done ∧ s.pc ≠ .suspended
  cont : s.word = .cont ↔ s.pc = .suspended ∧ s.word ≠ .done
  pc : match s.pc with
    | .load | .cas => s.ret = false
    | .suspended => s.ret = true
    | .take => s.val = some v
    | .call => s.arg = some v
    | .await => s.arg = some v ∧ s.ret = true
    | .fin => s.res = some (g v) ∧ s.ret = true
  past : s.pc = .take ∨ s.pc = .call ∨ s.pc = .await ∨ s.pc = .fin → s.co = .fin

theorem init_inv (g : Nat → Nat) (v : Nat) : Inv g v St.init := by
  constructor <;> simp [St.init]

theorem step_inv {g : Nat → Nat} {v : Nat} {tmp : Bool} {s : St} (I : Inv g v s) (e : Ev) (he : e ≠ .endExpr) :
    ∃ s', step g v tmp s e = .ok s' ∧ Inv g v s' := by
  obtain ⟨i1, i2, i3, i4, i5, i6, i7, i8⟩ := I
  obtain ⟨word, val, frame, task, fn, ret, over, co, pc, arg, res⟩ := s
  simp only at i1 i2 i3 i4 i5 i6 i7 i8
  subst i1 i2 i3 i4
  cases e with
  | endExpr => exact absurd rfl he
  | co =>
    cases co <;> cases word <;> cases pc <;> simp at i5 i6 i7 i8 <;>
      (simp only [step]; first
        | exact ⟨_, rfl, by constructor <;> simp_all⟩
        | (simp; constructor <;> simp_all))
  | go =>
    cases co <;> cases word <;> cases pc <;> simp at i5 i6 i7 i8 <;>
      (simp only [step]; first
        | exact ⟨_, rfl, by constructor <;> simp_all⟩
        | (simp [i5]; constructor <;> simp_all)
        | (simp [i7]; constructor <;> simp_all))

/-- Once `f` has been called, or from the start if `t` is finished. -/
structure Late (g : Nat → Nat) (v : Nat) (s : St) : Prop where
  co : s.co = .fin
  live : s.over = false → s.frame = true ∧ s.task = true ∧ s.fn = true ∧ s.word = .done ∧ s.val = some v
  pc : match s.pc with
    | .load | .take => s.ret = false ∧ s.over = false
    | .call => s.ret = false ∧ s.over = false ∧ s.arg = some v
    | .await => s.arg = some v
    | .fin => s.res = some (g v)
    | _ => False

theorem Inv.late {g : Nat → Nat} {v : Nat} {s : St} (I : Inv g v s) (h : s.pc = .await ∨ s.pc = .fin) : Late g v s := by
  obtain ⟨i1, i2, i3, i4, i5, i6, i7, i8⟩ := I
  have hc := i8 (by grind)
  rw [hc] at i5
  refine ⟨hc, fun _ => ⟨i1, i2, i3, i5.2.1, i5.1⟩, ?_⟩
  rcases h with h | h <;> rw [h] at i7 ⊢
  · exact i7.1
  · exact i7.1

theorem step_late {g : Nat → Nat} {v : Nat} {tmp : Bool} {s : St} (I : Late g v s) (e : Ev) :
    ∃ s', step g v tmp s e = .ok s' ∧ Late g v s' := by
  obtain ⟨i1, i2, i3⟩ := I
  obtain ⟨word, val, frame, task, fn, ret, over, co, pc, arg, res⟩ := s
  simp only at i1 i2 i3
  subst i1
  cases e with
  | co => exact ⟨_, rfl, ⟨rfl, i2, i3⟩⟩
  | go =>
    cases pc <;> simp at i3
    case load =>
      obtain ⟨rfl, rfl⟩ := i3
      obtain ⟨rfl, rfl, rfl, rfl, rfl⟩ := i2 rfl
      exact ⟨_, rfl, by constructor <;> simp⟩
    case take =>
      obtain ⟨rfl, rfl⟩ := i3
      obtain ⟨rfl, rfl, rfl, rfl, rfl⟩ := i2 rfl
      exact ⟨_, rfl, by constructor <;> simp⟩
    case call =>
      obtain ⟨rfl, rfl, rfl⟩ := i3
      obtain ⟨rfl, rfl, rfl, rfl, rfl⟩ := i2 rfl
      exact ⟨_, rfl, by constructor <;> simp⟩
    case await =>
      subst i3
      exact ⟨_, rfl, ⟨rfl, i2, by simp⟩⟩
    case fin => exact ⟨_, rfl, ⟨rfl, i2, by simpa using i3⟩⟩
  | endExpr =>
    simp only [step]
    by_cases h : ret = true ∧ over = false
    · obtain ⟨rfl, rfl⟩ := h
      obtain ⟨rfl, rfl, rfl, rfl, rfl⟩ := i2 rfl
      cases tmp <;> cases pc <;> simp at i3 <;>
        exact ⟨_, rfl, by constructor <;> simp_all⟩
    · rw [if_neg h]
      exact ⟨_, rfl, ⟨rfl, i2, i3⟩⟩

end Then
end Rpp
