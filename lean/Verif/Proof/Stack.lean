import Verif.Spec.StackRun
import Verif.Proof.VecWorld
import Verif.Spec.Stack

/-!
# `Stack` implements a last-in first-out stack
-/

namespace Rpp
open Rpp.Spec

variable {α : Type}

theorem stackImplRun_spec (T : Traits) : ∀ (ops : List (StackOp α)) (v : Vec) (l : List α)
    (h : Heap α) (D : Nat), h.WF → Vec.Rep T h v l → l.length ≤ D → v.cap ≤ 2 * D + 8 →
    2 * (D + ops.length) + 8 ≤ h.lim →
    match stackRun l.reverse ops with
    | some outs => ∃ h', stackImplRun T v ops h = .ok (outs, h')
    | none => stackImplRun T v ops h = .error .die := by
  intro ops
  induction ops with
  | nil => intro v l h D _ _ _ _ _; exact ⟨h, rfl⟩
  | cons op ops ih =>
    intro v l h D hw r hD hc hL
    simp only [List.length_cons] at hL
    -- continue after a step that changed the vector
    have cont : ∀ (o : Out α) (v' : Vec) (l' : List α) (h' : Heap α), h'.WF → Vec.Rep T h' v' l' →
        l'.length ≤ D + 1 → v'.cap ≤ 2 * (D + 1) + 8 → h'.lim = h.lim →
        stackImplStep T v op h = .ok ((o, v'), h') → stackStep l.reverse op = some (o, l'.reverse) →
        match stackRun l.reverse (op :: ops) with
        | some outs => ∃ h', stackImplRun T v (op :: ops) h = .ok (outs, h')
        | none => stackImplRun T v (op :: ops) h = .error .die := by
      intro o v' l' h' hw' r' hl' hc' hlim e1 e2
      have := ih v' l' h' (D + 1) hw' r' hl' hc' (by omega)
      simp only [stackRun, e2, Option.bind_eq_bind, Option.bind_some]
      cases hs : stackRun l'.reverse ops with
      | none =>
        simp only [hs] at this
        simp [stackImplRun, bind, StateT.bind, Except.bind, e1, this]
      | some outs =>
        simp only [hs] at this
        obtain ⟨h'', e⟩ := this
        exact ⟨h'', by simp [stackImplRun, bind, StateT.bind, Except.bind, e1, e, pure,
          StateT.pure, Except.pure]⟩
    cases op with
    | push a =>
      obtain ⟨v', h', e, r', f, hc'⟩ := wp_elim (Vec.wp_push (O := False) (x := a) hw r
        (by have := r.1; intros; omega)) id
      refine cont .unit v' (l ++ [a]) h' (f.wf hw r.lt) r' (by simp; omega)
        (by have := r.1; omega) f.lim_eq ?_ (by simp [stackStep])
      simp [stackImplStep, Stack.push, bind, StateT.bind, Except.bind, e, pure, StateT.pure,
        Except.pure]
    | pop =>
      by_cases hl : l = []
      · subst hl
        simp only [stackRun, stackStep, List.reverse_nil, Option.bind_eq_bind, Option.bind_none]
        simp [stackImplRun, stackImplStep, Stack.pop, Vec.pop, require, r.1, bind, StateT.bind,
          Except.bind]
      · obtain ⟨v', h', e, r', f, hc'⟩ := wp_elim (Vec.wp_pop (O := False) r hl) id
        refine cont .unit v' l.dropLast h' (f.wf hw r.lt) r' (by simp; omega) (by omega) f.lim_eq ?_ ?_
        · simp [stackImplStep, Stack.pop, bind, StateT.bind, Except.bind, e, pure, StateT.pure,
            Except.pure]
        · conv => lhs; rw [← List.dropLast_concat_getLast hl]
          simp [stackStep]
    | top =>
      by_cases hl : l = []
      · subst hl
        simp only [stackRun, stackStep, List.reverse_nil, Option.bind_eq_bind, Option.bind_none]
        simp [stackImplRun, stackImplStep, Stack.top, Vec.back, require, r.1, bind, StateT.bind,
          Except.bind]
      · obtain ⟨x, h', e, hx, rfl⟩ := wp_elim (Vec.wp_back (O := False) r hl) id
        refine cont (.val x) v l h' hw r (by omega) (by omega) rfl ?_ ?_
        · simp [stackImplStep, Stack.top, bind, StateT.bind, Except.bind, e, pure, StateT.pure,
            Except.pure]
        · have hr : l.reverse = x :: l.dropLast.reverse := by
            conv => lhs; rw [← List.dropLast_concat_getLast hl]
            simp [hx]
          simp [stackStep, hr]
    | length =>
      refine cont (.num l.length) v l h hw r (by omega) (by omega) rfl ?_ (by simp [stackStep])
      simp [stackImplStep, Stack.length, r.1, pure, StateT.pure, Except.pure]
    | clear =>
      obtain ⟨v', h', e, r', f, hc'⟩ := wp_elim (Vec.wp_clear (O := False) r) id
      refine cont .unit v' [] h' (f.wf hw r.lt) r' (by simp) (by omega) f.lim_eq ?_
        (by simp [stackStep])
      simp [stackImplStep, Stack.clear, bind, StateT.bind, Except.bind, e, pure, StateT.pure,
        Except.pure]

end Rpp
