import Verif.Proof.Heap

/-! Programs on one `Heap`. -/

namespace Rpp.PHeap
open Spec

variable {α : Type}

theorem clone_eq (T : Traits) (v : Vec) : (clone T v : M α Vec) = Vec.clone T v := by
  unfold clone Vec.clone Vec.withCapacity
  simp only [bind_assoc, pure_bind]

/-- How the end of a run relates to the end of a trace. -/
inductive Ends (T : Traits) : (Stop ⊕ List α) → Res (Vec × Heap α) → Prop
  | popEmpty : Ends T (.inl .popEmpty) (.error .die)
  | topEmpty {r} : Ends T (.inl .topEmpty) r
  | ok {b v h h'} : v.len = b.length → Vec.dtor T v h = .ok (Vec.nil, h') → (∀ j, h'.blk j = none) →
      Ends T (.inr b) (.ok (v, h))

/-- Everything known between two operations. -/
structure Inv (T : Traits) (lt : α → α → Bool) (h : Heap α) (v : Vec) (b : List α) (D : Nat) :
    Prop where
  wf : h.WF
  other : ∀ j, v.data ≠ some j → h.blk j = none
  rep : ∃ l, Vec.Rep T h v l ∧ l.Perm b ∧ HeapOrd lt l
  len : b.length ≤ D
  cap : v.cap ≤ 2 * D + 8

theorem Inv.next {T : Traits} {lt : α → α → Bool} {h h' : Heap α} {v v' : Vec} {b b' : List α}
    {D D' : Nat} (i : Inv T lt h v b D) (f : Frame h v.data h' v'.data)
    (r : ∃ l, Vec.Rep T h' v' l ∧ l.Perm b' ∧ HeapOrd lt l) (hl : b'.length ≤ D')
    (hc : v'.cap ≤ 2 * D' + 8) : Inv T lt h' v' b' D' := by
  obtain ⟨l, rl, _⟩ := i.rep
  refine ⟨f.wf i.wf rl.lt, ?_, r, hl, hc⟩
  intro j hj
  by_cases hv : v.data = some j
  · rcases f.own with e | ⟨_, e⟩
    · exact absurd (e.trans hv) hj
    · exact e j hv
  · rw [f.other j hv hj]; exact i.other j hv

theorem HeapOrd.nil (lt : α → α → Bool) : HeapOrd lt ([] : List α) := by
  intro i p hi; simp at hi

theorem run_spec {T : Traits} {lt : α → α → Bool} (hs : SWO lt) :
    ∀ (ops : List (HOp α)) (v : Vec) (b : List α) (h : Heap α) (D : Nat), Inv T lt h v b D →
    2 * (D + hDemand ops) + 8 ≤ h.lim →
    ∃ e, HTrace lt b ops (run T lt v h ops).1 e ∧ Ends T e (run T lt v h ops).2 := by
  intro ops
  induction ops with
  | nil =>
    intro v b h D i _
    refine ⟨.inr b, .nil b, ?_⟩
    obtain ⟨l, r, hp, _⟩ := i.rep
    obtain ⟨v', h', e, rfl, f⟩ := wp_elim (O := False) (Vec.wp_dtor i.wf r) (fun x => x)
    refine .ok (r.1.trans hp.length_eq) e ?_
    intro j
    by_cases hv : v.data = some j
    · rcases f.own with e | ⟨_, e⟩
      · rw [← e] at hv; cases hv
      · exact e j hv
    · rw [f.other j hv (by simp)]; exact i.other j hv
  | cons op ops ih =>
    intro v b h D i hL
    obtain ⟨l, r, hp, o⟩ := i.rep
    have hlen : v.len = b.length := r.1.trans hp.length_eq
    have hll : l.length = b.length := hp.length_eq
    have hD := i.len
    have hC := i.cap
    have hdem : hDemand (op :: ops) = op.demand + hDemand ops := by simp [hDemand]
    rw [hdem] at hL
    -- continue after a successful step
    have cont : ∀ (out : Out α) (v' : Vec) (h' : Heap α) (b' : List α),
        step T lt v op h = .ok ((out, v'), h') → h'.lim = h.lim →
        Inv T lt h' v' b' (D + op.demand) →
        (∀ os e, HTrace lt b' ops os e → HTrace lt b (op :: ops) (out :: os) e) →
        ∃ e, HTrace lt b (op :: ops) (run T lt v h (op :: ops)).1 e ∧
          Ends T e (run T lt v h (op :: ops)).2 := by
      intro out v' h' b' e1 hlim i' tr
      obtain ⟨e, t, en⟩ := ih v' b' h' (D + op.demand) i' (by rw [hlim]; omega)
      refine ⟨e, ?_, ?_⟩
      · simp only [run, e1]; exact tr _ _ t
      · simp only [run, e1]; exact en
    cases op with
    | push a =>
      simp only [HOp.demand] at hL cont
      obtain ⟨v', h', e, ⟨l', r', p', o'⟩, f, c⟩ := wp_elim (O := False)
        (wp_push (x := a) hs i.wf r o (by intros; omega)) (fun x => x)
      refine cont .unit v' h' (a :: b) ?_ f.lim_eq (i.next f ⟨l', r', p'.trans (hp.cons a), o'⟩
        (by simp; omega) (by omega)) (fun _ _ => .push)
      simp [step, bind, StateT.bind, Except.bind, e, pure, StateT.pure, Except.pure]
    | pop =>
      by_cases hb : 0 < l.length
      · obtain ⟨v', h', e, ⟨l', r', p', o'⟩, f, c⟩ := wp_elim (O := False)
          (wp_pop hs i.wf r o hb) (fun x => x)
        have := p'.length_eq
        simp only [List.length_cons] at this
        refine cont .unit v' h' l' ?_ f.lim_eq (i.next f ⟨l', r', .refl _, o'⟩ (by omega)
          (by omega)) (fun _ _ => .pop (o.isMin hs hp hb) (hp.symm.trans p'))
        simp [step, bind, StateT.bind, Except.bind, e, pure, StateT.pure, Except.pure]
      · have hb0 : b = [] := List.length_eq_zero_iff.mp (by omega)
        subst hb0
        have e : run T lt v h (.pop :: ops) = ([], .error .die) := by
          simp at hlen
          simp [run, step, pop, bind, StateT.bind, Except.bind, require, hlen]
        rw [e]
        exact ⟨.inl .popEmpty, .popEmpty, .popEmpty⟩
    | top =>
      by_cases hb : 0 < l.length
      · obtain ⟨x, h', e, rfl, rfl⟩ := wp_elim (O := False) (m := readAt v.data 0)
          (Vec.wp_read r hb (Q := fun x h' => x = l[0] ∧ h' = h) ⟨rfl, rfl⟩) (fun x => x)
        refine cont (.val l[0]) v h' b ?_ rfl (i.next (Frame.refl _ _) i.rep (by omega) (by omega))
          (fun _ _ => .top (o.isMin hs hp hb))
        simp [step, top, bind, StateT.bind, Except.bind, e, pure, StateT.pure, Except.pure]
      · have hb0 : b = [] := List.length_eq_zero_iff.mp (by omega)
        subst hb0
        exact ⟨.inl .topEmpty, .topEmpty, .topEmpty⟩
    | take =>
      by_cases hb : 0 < l.length
      · obtain ⟨x, h1, e1, rfl, rfl⟩ := wp_elim (O := False) (m := readAt v.data 0)
          (Vec.wp_read r hb (Q := fun x h' => x = l[0] ∧ h' = h) ⟨rfl, rfl⟩) (fun x => x)
        obtain ⟨v', h', e, ⟨l', r', p', o'⟩, f, c⟩ := wp_elim (O := False)
          (wp_pop hs i.wf r o hb) (fun x => x)
        have := p'.length_eq
        simp only [List.length_cons] at this
        refine cont (.val l[0]) v' h' l' ?_ f.lim_eq (i.next f ⟨l', r', .refl _, o'⟩ (by omega)
          (by omega)) (fun _ _ => .take (o.isMin hs hp hb) (hp.symm.trans p'))
        simp [step, top, bind, StateT.bind, Except.bind, e1, e, pure, StateT.pure, Except.pure]
      · have hb0 : b = [] := List.length_eq_zero_iff.mp (by omega)
        subst hb0
        exact ⟨.inl .topEmpty, .takeEmpty, .topEmpty⟩
    | length =>
      refine cont (.num v.len) v h b rfl rfl (i.next (Frame.refl _ _) i.rep (by omega) (by omega)) ?_
      intro os e t; rw [hlen]; exact .length t
    | clear =>
      obtain ⟨v', h', e, r', f, c⟩ := wp_elim (O := False) (Vec.wp_clear r) (fun x => x)
      refine cont .unit v' h' [] ?_ f.lim_eq (i.next f ⟨[], r', .refl _, HeapOrd.nil lt⟩ (by simp)
        (by omega)) (fun _ _ => .clear)
      simp [step, bind, StateT.bind, Except.bind, e, pure, StateT.pure, Except.pure]
    | reserve n =>
      simp only [HOp.demand] at hL cont
      obtain ⟨v', h', e, r', f, c⟩ := wp_elim (O := False) (wp_reserve (n := n) i.wf r (by omega))
        (fun x => x)
      refine cont .unit v' h' b ?_ f.lim_eq (i.next f ⟨l, r', hp, o⟩ (by omega) (by omega))
        (fun _ _ => .reserve)
      simp [step, bind, StateT.bind, Except.bind, e, pure, StateT.pure, Except.pure]
    | elems =>
      obtain ⟨xs, h', e, hx, rfl⟩ := wp_elim (O := False)
        (Vec.wp_iterate r v.len 0 (by have := r.1; omega)) (fun x => x)
      simp only [List.drop_zero] at hx
      subst hx
      refine cont (.list xs) v h' b ?_ rfl
        (i.next (Frame.refl _ _) i.rep (by omega) (by omega)) (fun _ _ => .elems (by simpa using hp))
      simp [step, bind, StateT.bind, Except.bind, e, pure, StateT.pure, Except.pure]
    | reclone =>
      obtain ⟨w, h1, e1, r1, f1, c1⟩ := wp_elim (O := False)
        (Vec.wp_clone r (by have := i.cap; simp only [HOp.demand] at hL; omega)) (fun x => x)
      have hw1 := f1.wf i.wf (by simp)
      have hdata : ∀ j, v.data = some j → h1.blk j = h.blk j := by
        intro j hj
        refine f1.other j (by simp) ?_
        intro hwj
        rcases f1.own with e | ⟨e, _⟩
        · rw [e] at hwj; cases hwj
        · have := (e j hwj).1; have := r.lt j hj; omega
      have rv1 : Vec.Rep T h1 v l := r.congr f1.next_le hdata
      obtain ⟨n, h2, e2, rfl, f2⟩ := wp_elim (O := False) (Vec.wp_dtor hw1 rv1) (fun x => x)
      have hwv : ∀ j, w.data = some j → v.data ≠ some j := by
        intro j hj hv
        rcases f1.own with e | ⟨e, _⟩
        · rw [e] at hj; cases hj
        · have := (e j hj).1; have := r.lt j hv; omega
      have rw2 : Vec.Rep T h2 w l :=
        r1.congr f2.next_le (fun j hj => f2.other j (hwv j hj) (by simp))
      refine cont .unit w h2 b ?_ (f2.lim_eq.trans f1.lim_eq)
        ⟨f2.wf hw1 rv1.lt, ?_, ⟨l, rw2, hp, o⟩, by omega, by omega⟩ (fun _ _ => .reclone)
      · simp [step, clone_eq, bind, StateT.bind, Except.bind, e1, e2, pure, StateT.pure, Except.pure]
      · intro j hj
        by_cases hv : v.data = some j
        · rcases f2.own with e | ⟨_, e⟩
          · rw [← e] at hv; cases hv
          · exact e j hv
        · rw [f2.other j hv (by simp), f1.other j (by simp) hj]; exact i.other j hv

end Rpp.PHeap
