import Verif.Model.HeapWorld
import Verif.Proof.HeapRun
import Verif.Proof.VecWorld

/-! Client programs over several heaps: every step refines the bag specification. -/

namespace Rpp.HeapWorld
open Spec

variable {α : Type}

/-- A heap ordered buffer holding the bag `b`. -/
def HRep (T : Traits) (lt : α → α → Bool) (h : Heap α) (v : Vec) (b : List α) : Prop :=
  ∃ l, Vec.Rep T h v l ∧ l.Perm b ∧ PHeap.HeapOrd lt l

theorem HRep.lt' {T : Traits} {lt : α → α → Bool} {h : Heap α} {v : Vec} {b : List α}
    (r : HRep T lt h v b) : ∀ j, v.data = some j → j < h.next := by
  obtain ⟨l, r, _⟩ := r; exact r.lt

theorem HRep.congr {T : Traits} {lt : α → α → Bool} {h h' : Heap α} {v : Vec} {b : List α}
    (r : HRep T lt h v b) (hn : h.next ≤ h'.next)
    (hb : ∀ j, v.data = some j → h'.blk j = h.blk j) : HRep T lt h' v b := by
  obtain ⟨l, r, p, o⟩ := r; exact ⟨l, r.congr hn hb, p, o⟩

theorem HRep.nil (T : Traits) (lt : α → α → Bool) (h : Heap α) : HRep T lt h Vec.nil [] :=
  ⟨[], Vec.Rep.nil T h, .refl _, PHeap.HeapOrd.nil lt⟩

theorem HRep.len {T : Traits} {lt : α → α → Bool} {h : Heap α} {v : Vec} {b : List α}
    (r : HRep T lt h v b) : v.len = b.length := by
  obtain ⟨l, r, p, _⟩ := r; exact r.1.trans p.length_eq

theorem repOk (T : Traits) (lt : α → α → Bool) : RepOk (α := α) Vec.data (HRep T lt) where
  lt r := r.lt'
  congr r hn hb := r.congr hn hb

/-- Invariant of a client program over the variables `X`. -/
structure Inv (T : Traits) (lt : α → α → Bool) (X : List Nat) (w : VecWorld α) (s : Vars α)
    (D L : Nat) : Prop where
  winv : WInv Vec.data (HRep T lt) w.vars w.heap s
  bound : VecWorld.Bound D s w.vars
  lim : w.heap.lim = L
  out : ∀ x, x ∉ X → w.vars x = Vec.nil

theorem out_upd {X : List Nat} {vars : Nat → Vec} (h : ∀ x, x ∉ X → vars x = Vec.nil) {x : Nat}
    (hx : x ∈ X) (v : Vec) : ∀ y, y ∉ X → upd vars x v y = Vec.nil := by
  intro y hy
  rw [upd_ne _ _ (fun e : y = x => hy (e ▸ hx))]
  exact h y hy

theorem dtor_nil (T : Traits) (h : Heap α) : Vec.dtor T Vec.nil h = .ok (Vec.nil, h) := by
  simp [Vec.dtor, Vec.nil, forLoop]; cases T.triv <;> rfl

theorem wp_dtor {T : Traits} {lt : α → α → Bool} {h : Heap α} {v : Vec} {b : List α} (hw : h.WF)
    (r : HRep T lt h v b) : ∃ h', Vec.dtor T v h = .ok (Vec.nil, h') ∧ Frame h v.data h' none := by
  obtain ⟨l, r, _⟩ := r
  obtain ⟨v', h', e, rfl, f⟩ := wp_elim (Vec.wp_dtor (O := False) hw r) id
  exact ⟨h', e, f⟩

theorem on_ok {T : Traits} {lt : α → α → Bool} {X : List Nat} {w : VecWorld α} {s : Vars α}
    {D D' L : Nat} (I : Inv T lt X w s D L) (hD : D ≤ D') {x : Nat} (hx : x ∈ X)
    {f : Vec → M α Vec} {v : Vec} {h : Heap α} {b : List α} (e : f (w.vars x) w.heap = .ok (v, h))
    (r : HRep T lt h v b) (fr : Frame w.heap (w.vars x).data h v.data) (hc : v.cap ≤ 2 * D' + 8)
    (hl : b.length ≤ D') :
    ∃ w', w.on x f = .ok (.unit, w') ∧ Inv T lt X w' (upd s x b) D' L := by
  refine ⟨⟨upd w.vars x v, h⟩, ?_, ?_⟩
  · simp [VecWorld.on, e]; rfl
  · exact ⟨I.winv.update (repOk T lt) r fr, I.bound.upd hD hl hc, fr.lim_eq.trans I.lim,
      out_upd I.out hx v⟩

theorem Inv.mono {T : Traits} {lt : α → α → Bool} {X : List Nat} {w : VecWorld α} {s : Vars α}
    {D D' L : Nat} (I : Inv T lt X w s D L) (hD : D ≤ D') : Inv T lt X w s D' L :=
  ⟨I.winv, I.bound.mono hD, I.lim, I.out⟩

theorem assignTemp_ok {T : Traits} {lt : α → α → Bool} {X : List Nat} {w : VecWorld α} {s : Vars α}
    {D D' L : Nat} (I : Inv T lt X w s D L) (hD : D ≤ D') {x : Nat} (hx : x ∈ X) {t : M α Vec}
    {v : Vec} {h1 : Heap α} {b : List α} (e1 : t w.heap = .ok (v, h1)) (r : HRep T lt h1 v b)
    (fr : Frame w.heap none h1 v.data) (hc : v.cap ≤ 2 * D' + 8) (hl : b.length ≤ D') :
    ∃ w', VecWorld.assignTemp T w x t = .ok w' ∧ Inv T lt X w' (upd s x b) D' L := by
  have hwf1 : h1.WF := fr.wf I.winv.wf (by simp)
  have rx : HRep T lt h1 (w.vars x) (s x) := by
    refine (I.winv.rep x).congr fr.next_le ?_
    intro j hj
    refine fr.other j (by simp) ?_
    intro e
    rcases fr.own with e' | ⟨e', _⟩
    · rw [e'] at e; simp at e
    · have := e' j e; have := (I.winv.rep x).lt' j hj; omega
  obtain ⟨h2, e2, fr2⟩ := wp_dtor hwf1 rx
  refine ⟨⟨upd w.vars x v, h2⟩, ?_, ?_⟩
  · simp only [VecWorld.assignTemp]
    rw [e1]
    simp only [bind, Except.bind, e2, dtor_nil, pure, Except.pure]
  · exact ⟨I.winv.assign (repOk T lt) r fr fr2, I.bound.upd hD hl hc,
      fr2.lim_eq.trans (fr.lim_eq.trans I.lim), out_upd I.out hx v⟩

theorem moveAssign_ok {T : Traits} {lt : α → α → Bool} {X : List Nat} {w : VecWorld α} {s : Vars α}
    {D L : Nat} (I : Inv T lt X w s D L) {x y : Nat} (hx : x ∈ X) (hy : y ∈ X) :
    ∃ w', VecWorld.moveAssign T w x y = .ok w' ∧
      Inv T lt X w' (upd (upd s x (if x = y then [] else s y)) y []) D L := by
  obtain ⟨h, e, fr⟩ := wp_dtor I.winv.wf (I.winv.rep x)
  by_cases hxy : x = y
  · subst hxy
    refine ⟨⟨upd w.vars x Vec.nil, h⟩, ?_, ?_⟩
    · simp only [VecWorld.moveAssign]
      rw [e]
      show Except.ok _ = _
      congr 2
      funext z; by_cases hz : z = x <;> simp [upd, hz]
    · have : upd (upd s x (if x = x then [] else s x)) x [] = upd s x [] := by
        funext z; by_cases hz : z = x <;> simp [upd, hz]
      rw [this]
      exact ⟨I.winv.update (repOk T lt) (HRep.nil T lt h) fr, I.bound.upd (Nat.le_refl _) (by simp)
        (by simp [Vec.nil]), fr.lim_eq.trans I.lim, out_upd I.out hx _⟩
  · refine ⟨⟨upd (upd w.vars x (w.vars y)) y Vec.nil, h⟩, ?_, ?_⟩
    · simp only [VecWorld.moveAssign]
      rw [e]
      show Except.ok _ = _
      congr 2
      funext z
      by_cases hz : z = y
      · simp [upd, hz]
      · by_cases hzx : z = x
        · have hyx : y ≠ x := Ne.symm hxy
          simp [upd, hz, hzx, hyx]
        · simp [upd, hz, hzx]
    · rw [if_neg hxy]
      refine ⟨I.winv.move (repOk T lt) hxy rfl (HRep.nil T lt) fr, ?_, fr.lim_eq.trans I.lim,
        out_upd (out_upd I.out hx _) hy _⟩
      exact (I.bound.upd (Nat.le_refl _) (I.bound y).1 (I.bound y).2).upd (Nat.le_refl _)
        (by simp) (by simp [Vec.nil])

theorem pushAll_ok {T : Traits} {lt : α → α → Bool} (hs : SWO lt) {N : Nat} : ∀ (l : List α)
    (h : Heap α) (v : Vec) (b : List α), h.WF → HRep T lt h v b → b.length + l.length ≤ N →
    v.cap ≤ 2 * N + 8 → 2 * N + 8 ≤ h.lim →
    ∃ v' h', pushAll T lt v l h = .ok (v', h') ∧ HRep T lt h' v' (l.reverse ++ b) ∧
      Frame h v.data h' v'.data ∧ v'.cap ≤ 2 * N + 8 := by
  intro l
  induction l with
  | nil =>
    intro h v b _ r _ hc _
    exact ⟨v, h, rfl, by simpa using r, Frame.refl _ _, hc⟩
  | cons a l ih =>
    intro h v b hw r hl hc hL
    obtain ⟨l0, r0, p0, o0⟩ := r
    simp only [List.length_cons] at hl
    have hlen := r0.1
    have hb := p0.length_eq
    obtain ⟨v1, h1, e1, ⟨l1, r1, p1, o1⟩, f1, c1⟩ := wp_elim (O := False)
      (PHeap.wp_push (x := a) hs hw r0 o0 (by intros; omega)) (fun x => x)
    obtain ⟨v2, h2, e2, r2, f2, c2⟩ := ih h1 v1 (a :: b) (f1.wf hw r0.lt)
      ⟨l1, r1, p1.trans (p0.cons a), o1⟩ (by simp; omega) (by omega) (by rw [f1.lim_eq]; exact hL)
    refine ⟨v2, h2, ?_, by simpa using r2, f1.trans f2 hw r0.lt, c2⟩
    simp only [pushAll, bind, StateT.bind, Except.bind, e1, e2]

theorem ofElems_ok {T : Traits} {lt : α → α → Bool} (hs : SWO lt) (l : List α) (h : Heap α)
    (hw : h.WF) (hL : 2 * l.length + 8 ≤ h.lim) :
    ∃ v' h', ofElems T lt l h = .ok (v', h') ∧ HRep T lt h' v' l ∧ Frame h none h' v'.data ∧
      v'.cap ≤ 2 * l.length + 8 := by
  obtain ⟨v1, h1, e1, r1, f1, c1⟩ := wp_elim (O := False)
    (PHeap.wp_reserve (n := l.length) hw (Vec.Rep.nil T h) (by omega)) (fun x => x)
  have hw1 : h1.WF := f1.wf hw (by simp [Vec.nil])
  have hc : v1.cap ≤ 2 * l.length + 8 := by
    have : Vec.nil.cap = 0 := rfl
    omega
  obtain ⟨v2, h2, e2, r2, f2, c2⟩ := pushAll_ok (T := T) hs (N := l.length) l h1 v1 [] hw1
    ⟨[], r1, .refl _, PHeap.HeapOrd.nil lt⟩ (by simp) hc (by rw [f1.lim_eq]; exact hL)
  refine ⟨v2, h2, ?_, ?_, f1.trans f2 hw (by simp [Vec.nil]), c2⟩
  · simp only [ofElems, bind, StateT.bind, Except.bind, e1, e2]
  · obtain ⟨l', r', p', o'⟩ := r2
    exact ⟨l', r', p'.trans (by simpa using l.reverse_perm), o'⟩

/-- One operation does what the specification says, or stops where the specification does. -/
theorem step_spec {T : Traits} {lt : α → α → Bool} (hs : SWO lt) {X : List Nat} {w : VecWorld α}
    {s : Vars α} {D L : Nat} (I : Inv T lt X w s D L) (op : HWOp α) (hX : ∀ x ∈ op.names, x ∈ X)
    (hL : 2 * (D + op.demand) + 8 ≤ L) :
    (∃ o s' w', HWStep lt s op o s' ∧ step T lt w op = .ok (o, w') ∧
      Inv T lt X w' s' (D + op.demand) L) ∨
    (HWStop s op .popEmpty ∧ step T lt w op = .error .die) ∨ HWStop s op .topEmpty := by
  have hwf := I.winv.wf
  have hlim := I.lim
  cases op with
  | fresh x n =>
    simp only [HWOp.demand] at hL ⊢
    obtain ⟨v, h, e, r, f, c⟩ := wp_elim (Vec.wp_withCapacity (O := False) (T := T) (n := n)
      (h := w.heap) (by omega)) id
    obtain ⟨w', e', I'⟩ := assignTemp_ok (D' := D + n) I (by omega) (x := x)
      (hX x (by simp [HWOp.names])) e ⟨[], r, .refl _, PHeap.HeapOrd.nil lt⟩ f (by omega) (by simp)
    exact Or.inl ⟨_, _, w', .fresh, by simp only [step, e']; rfl, I'⟩
  | init x l =>
    simp only [HWOp.demand] at hL ⊢
    obtain ⟨v, h, e, r, f, c⟩ := ofElems_ok (T := T) hs l w.heap hwf (by omega)
    obtain ⟨w', e', I'⟩ := assignTemp_ok (D' := D + l.length) I (by omega) (x := x)
      (hX x (by simp [HWOp.names])) e r f (by omega) (by omega)
    exact Or.inl ⟨_, _, w', .init, by simp only [step, e']; rfl, I'⟩
  | push x a =>
    simp only [HWOp.demand] at hL ⊢
    have hb := I.bound x
    obtain ⟨l, r, p, o⟩ := I.winv.rep x
    have h1 := r.1
    have h2 := p.length_eq
    obtain ⟨v, h, e, ⟨l', r', p', o'⟩, f, c⟩ := wp_elim (O := False)
      (PHeap.wp_push (x := a) hs hwf r o (by intros; omega)) (fun x => x)
    obtain ⟨w', e', I'⟩ := on_ok (D' := D + 1) (b := a :: s x) I (by omega)
      (hX x (by simp [HWOp.names])) (f := fun v => PHeap.push T lt v a) e
      ⟨l', r', p'.trans (p.cons a), o'⟩ f (by omega) (by simp; omega)
    exact Or.inl ⟨_, _, w', .push, e', I'⟩
  | pop x =>
    simp only [HWOp.demand, Nat.add_zero] at hL ⊢
    have hb := I.bound x
    obtain ⟨l, r, p, o⟩ := I.winv.rep x
    have h2 := p.length_eq
    by_cases h0 : 0 < l.length
    · obtain ⟨v, h, e, ⟨l', r', p', o'⟩, f, c⟩ := wp_elim (O := False)
        (PHeap.wp_pop hs hwf r o h0) (fun x => x)
      have h3 := p'.length_eq
      simp only [List.length_cons] at h3
      obtain ⟨w', e', I'⟩ := on_ok (D' := D) (b := l') I (by omega)
        (hX x (by simp [HWOp.names])) (f := PHeap.pop T lt) e
        ⟨l', r', .refl _, o'⟩ f (by omega) (by omega)
      exact Or.inl ⟨_, _, w', .pop (o.isMin hs p h0) (p.symm.trans p'), e', I'⟩
    · refine Or.inr (Or.inl ⟨.pop (List.length_eq_zero_iff.mp (by omega)), ?_⟩)
      have : (w.vars x).len = 0 := by have := r.1; omega
      simp [step, VecWorld.on, PHeap.pop, bind, StateT.bind, Except.bind, require, this]
  | top x =>
    simp only [HWOp.demand, Nat.add_zero] at hL ⊢
    obtain ⟨l, r, p, o⟩ := I.winv.rep x
    have h2 := p.length_eq
    by_cases h0 : 0 < l.length
    · obtain ⟨a, h, e, rfl, rfl⟩ := wp_elim (O := False) (m := readAt (w.vars x).data 0)
        (Vec.wp_read r h0 (Q := fun a h' => a = l[0] ∧ h' = w.heap) ⟨rfl, rfl⟩) (fun x => x)
      refine Or.inl ⟨_, _, w, .top (o.isMin hs p h0), ?_, I⟩
      simp only [step, VecWorld.query, PHeap.top, bind, StateT.bind, Except.bind, e, pure,
        StateT.pure, Except.pure]
    · exact Or.inr (Or.inr (.top (List.length_eq_zero_iff.mp (by omega))))
  | take x =>
    simp only [HWOp.demand, Nat.add_zero] at hL ⊢
    have hb := I.bound x
    obtain ⟨l, r, p, o⟩ := I.winv.rep x
    have h2 := p.length_eq
    by_cases h0 : 0 < l.length
    · obtain ⟨a, h, e, rfl, rfl⟩ := wp_elim (O := False) (m := readAt (w.vars x).data 0)
        (Vec.wp_read r h0 (Q := fun a h' => a = l[0] ∧ h' = w.heap) ⟨rfl, rfl⟩) (fun x => x)
      obtain ⟨v, h, e1, ⟨l', r', p', o'⟩, f, c⟩ := wp_elim (O := False)
        (PHeap.wp_pop hs hwf r o h0) (fun x => x)
      have h3 := p'.length_eq
      simp only [List.length_cons] at h3
      refine Or.inl ⟨_, _, ⟨upd w.vars x v, h⟩, .take (o.isMin hs p h0) (p.symm.trans p'), ?_,
        I.winv.update (repOk T lt) ⟨l', r', .refl _, o'⟩ f,
        I.bound.upd (Nat.le_refl _) (by omega) (by omega), f.lim_eq.trans I.lim,
        out_upd I.out (hX x (by simp [HWOp.names])) v⟩
      simp only [step, PHeap.top, bind, Except.bind, e, e1, pure, Except.pure]
    · exact Or.inr (Or.inr (.take (List.length_eq_zero_iff.mp (by omega))))
  | length x =>
    simp only [HWOp.demand, Nat.add_zero] at hL ⊢
    refine Or.inl ⟨_, _, w, .length, ?_, I⟩
    rw [← (I.winv.rep x).len]; rfl
  | clear x =>
    simp only [HWOp.demand, Nat.add_zero] at hL ⊢
    have hb := I.bound x
    obtain ⟨l, r, p, o⟩ := I.winv.rep x
    obtain ⟨v, h, e, r', f, c⟩ := wp_elim (O := False) (Vec.wp_clear r) (fun x => x)
    obtain ⟨w', e', I'⟩ := on_ok (D' := D) (b := []) I (by omega)
      (hX x (by simp [HWOp.names])) (f := Vec.clear T) e
      ⟨[], r', .refl _, PHeap.HeapOrd.nil lt⟩ f (by omega) (by simp)
    exact Or.inl ⟨_, _, w', .clear, e', I'⟩
  | reserve x n =>
    simp only [HWOp.demand] at hL ⊢
    have hb := I.bound x
    obtain ⟨l, r, p, o⟩ := I.winv.rep x
    obtain ⟨v, h, e, r', f, c⟩ := wp_elim (O := False) (PHeap.wp_reserve (n := n) hwf r (by omega))
      (fun x => x)
    obtain ⟨w', e', I'⟩ := on_ok (D' := D + n) (b := s x) I (by omega)
      (hX x (by simp [HWOp.names])) (f := fun v => PHeap.reserve T v n) e
      ⟨l, r', p, o⟩ f (by omega) (by omega)
    rw [VecWorld.upd_eq] at I'
    exact Or.inl ⟨_, _, w', .reserve, e', I'⟩
  | elems x =>
    simp only [HWOp.demand, Nat.add_zero] at hL ⊢
    obtain ⟨l, r, p, o⟩ := I.winv.rep x
    obtain ⟨xs, h, e, hx, rfl⟩ := wp_elim (O := False)
      (Vec.wp_iterate r (w.vars x).len 0 (by have := r.1; omega)) (fun x => x)
    simp only [List.drop_zero] at hx
    subst hx
    refine Or.inl ⟨_, _, w, .elems p, ?_, I⟩
    simp only [step, VecWorld.query, bind, StateT.bind, Except.bind, e, pure, StateT.pure,
      Except.pure]
  | moveAssign x y =>
    simp only [HWOp.demand, Nat.add_zero] at hL ⊢
    obtain ⟨w', e', I'⟩ := moveAssign_ok I (hX x (by simp [HWOp.names]))
      (hX y (by simp [HWOp.names]))
    exact Or.inl ⟨_, _, w', .moveAssign, by simp only [step, e']; rfl, I'⟩
  | cloneAssign x y =>
    simp only [HWOp.demand, Nat.add_zero] at hL ⊢
    have hb := I.bound y
    obtain ⟨l, r, p, o⟩ := I.winv.rep y
    obtain ⟨v, h, e, r', f, c⟩ := wp_elim (O := False) (Vec.wp_clone r (by omega)) (fun x => x)
    rw [← PHeap.clone_eq] at e
    obtain ⟨w', e', I'⟩ := assignTemp_ok (D' := D) I (by omega) (x := x)
      (hX x (by simp [HWOp.names])) e ⟨l, r', p, o⟩ f (by omega) hb.1
    exact Or.inl ⟨_, _, w', .cloneAssign, by simp only [step, e']; rfl, I'⟩
  | scopeEnd x =>
    simp only [HWOp.demand, Nat.add_zero] at hL ⊢
    obtain ⟨h, e, f⟩ := wp_dtor hwf (I.winv.rep x)
    obtain ⟨w', e', I'⟩ := on_ok (D' := D) (b := []) I (by omega)
      (hX x (by simp [HWOp.names])) (f := Vec.dtor T) e
      (HRep.nil T lt h) f (by simp [Vec.nil]) (by simp)
    exact Or.inl ⟨_, _, w', .scopeEnd, e', I'⟩

theorem finish_spec {T : Traits} {lt : α → α → Bool} {X : List Nat} {L : Nat} :
    ∀ (xs : List Nat) (w : VecWorld α) (s : Vars α) (D : Nat), (∀ x ∈ xs, x ∈ X) →
    Inv T lt X w s D L → ∃ w' s', VecWorld.finish T w xs = .ok w' ∧ Inv T lt X w' s' D L ∧
      (∀ x ∈ xs, w'.vars x = Vec.nil) ∧ (∀ x, w.vars x = Vec.nil → w'.vars x = Vec.nil) := by
  intro xs
  induction xs with
  | nil => intro w s D _ I; exact ⟨w, s, rfl, I, by simp, fun _ h => h⟩
  | cons x xs ih =>
    intro w s D hX I
    obtain ⟨h, e, fr⟩ := wp_dtor I.winv.wf (I.winv.rep x)
    have I1 : Inv T lt X ⟨upd w.vars x Vec.nil, h⟩ (upd s x []) D L :=
      ⟨I.winv.update (repOk T lt) (HRep.nil T lt h) fr, I.bound.upd (Nat.le_refl _) (by simp)
        (by simp [Vec.nil]), fr.lim_eq.trans I.lim, out_upd I.out (hX x (by simp)) _⟩
    obtain ⟨w', s', e', I', h1, h2⟩ := ih _ _ _ (fun y hy => hX y (by simp [hy])) I1
    refine ⟨w', s', ?_, I', ?_, ?_⟩
    · simp [VecWorld.finish, VecWorld.on, e, e', bind, Except.bind, pure, Except.pure]
    · intro y hy
      rcases List.mem_cons.mp hy with rfl | hy
      · exact h2 _ (by simp)
      · exact h1 y hy
    · intro y hy
      apply h2
      by_cases hyx : y = x
      · subst hyx; simp
      · simp only [upd_ne _ _ hyx]; exact hy

/-- How the end of a run relates to the end of a trace. -/
inductive Ends (T : Traits) (X : List Nat) : (Stop ⊕ Vars α) → Res (VecWorld α) → Prop
  | popEmpty : Ends T X (.inl .popEmpty) (.error .die)
  | topEmpty {r} : Ends T X (.inl .topEmpty) r
  | ok {s w w'} : (∀ x, (w.vars x).len = (s x).length) → VecWorld.finish T w X = .ok w' →
      (∀ j, w'.heap.blk j = none) → Ends T X (.inr s) (.ok w)

theorem run_spec {T : Traits} {lt : α → α → Bool} (hs : SWO lt) {X : List Nat} {L : Nat} :
    ∀ (ops : List (HWOp α)) (w : VecWorld α) (s : Vars α) (D : Nat), Inv T lt X w s D L →
    (∀ op ∈ ops, ∀ x ∈ op.names, x ∈ X) → 2 * (D + hwDemand ops) + 8 ≤ L →
    ∃ e, HWTrace lt s ops (run T lt w ops).1 e ∧ Ends T X e (run T lt w ops).2 := by
  intro ops
  induction ops with
  | nil =>
    intro w s D I _ _
    refine ⟨.inr s, .nil s, ?_⟩
    obtain ⟨w', s', e, I', h1, h2⟩ := finish_spec X w s D (fun _ h => h) I
    refine .ok (fun x => (I.winv.rep x).len) e ?_
    intro j
    cases hj : w'.heap.blk j with
    | none => rfl
    | some b =>
      obtain ⟨x, hx⟩ := I'.winv.owned j (by rw [hj]; simp)
      have : w'.vars x = Vec.nil := by
        by_cases hX : x ∈ X
        · exact h1 x hX
        · exact I'.out x hX
      rw [this] at hx; simp [Vec.nil] at hx
  | cons op ops ih =>
    intro w s D I hX hL
    have hdem : hwDemand (op :: ops) = op.demand + hwDemand ops := by simp [hwDemand]
    rcases step_spec hs I op (hX op (by simp)) (by omega) with ⟨o, s', w', hst, e, I'⟩ | ⟨hst, e⟩ | hst
    · obtain ⟨r, t, en⟩ := ih w' s' _ I' (fun p hp => hX p (by simp [hp])) (by omega)
      refine ⟨r, ?_, ?_⟩
      · simp only [run, e]; exact .step hst t
      · simp only [run, e]; exact en
    · refine ⟨.inl .popEmpty, ?_, ?_⟩
      · simp only [run, e]; exact .die hst
      · simp only [run, e]; exact .popEmpty
    · exact ⟨.inl .topEmpty, .wrong hst, .topEmpty⟩

theorem init_inv (T : Traits) (lt : α → α → Bool) (X : List Nat) (L : Nat) :
    Inv T lt X (VecWorld.init L : VecWorld α) (fun _ => []) 0 L := by
  refine ⟨⟨fun j _ => rfl, fun x => HRep.nil T lt _, ?_, ?_⟩, ?_, rfl, fun _ _ => rfl⟩
  · intro x y j _ h; simp [VecWorld.init, Vec.nil] at h
  · intro j h; simp [VecWorld.init, Heap.empty] at h
  · intro x; simp [VecWorld.init, Vec.nil]

end Rpp.HeapWorld
