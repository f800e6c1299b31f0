import Verif.Proof.Queue
import Verif.Proof.World

/-! Client programs over queues: every step refines the list specification. -/

namespace Rpp
open Spec (QOp Out upd qStep qRun qDemand Vars)
variable {α : Type}

namespace QWorld

theorem repOk (T : Traits) : RepOk (α := α) Queue.data (Queue.Rep T) where
  lt r := r.lt
  congr r hn hb := r.congr hn hb

/-- Sizes stay within twice the demand. -/
def Bound (D : Nat) (s : Vars α) (vars : Nat → Queue) : Prop :=
  ∀ x, (s x).length ≤ D ∧ (vars x).cap ≤ 2 * D + 8

/-- Invariant of a client program. -/
structure Inv (T : Traits) (w : QWorld α) (s : Vars α) (D L : Nat) : Prop where
  winv : WInv Queue.data (Queue.Rep T) w.vars w.heap s
  bound : Bound D s w.vars
  lim : w.heap.lim = L

theorem Bound.upd {D D' : Nat} {s : Vars α} {vars : Nat → Queue} (b : Bound D s vars) (hD : D ≤ D')
    {x : Nat} {l : List α} {v : Queue} (h1 : l.length ≤ D') (h2 : v.cap ≤ 2 * D' + 8) :
    Bound D' (Spec.upd s x l) (Spec.upd vars x v) := by
  intro y
  by_cases hy : y = x
  · subst hy; simp [h1, h2]
  · rw [upd_ne _ _ hy, upd_ne _ _ hy]
    have := b y; omega

theorem Bound.mono {D D' : Nat} {s : Vars α} {vars : Nat → Queue} (b : Bound D s vars) (hD : D ≤ D') :
    Bound D' s vars := by
  intro y; have := b y; omega

theorem upd_eq {β : Type _} (f : Nat → β) (x : Nat) : Spec.upd f x (f x) = f := by
  funext y; by_cases hy : y = x
  · subst hy; simp
  · rw [upd_ne _ _ hy]

/-- A member function with a `wp` specification, run on variable `x`. -/
theorem on_ok {T : Traits} {w : QWorld α} {s : Vars α} {D D' L : Nat} (I : Inv T w s D L)
    (hD : D ≤ D') {x : Nat} {f : Queue → M α Queue} {l : List α}
    (hf : wp False (f (w.vars x)) w.heap (fun v' h' => Queue.Rep T h' v' l ∧
      Frame w.heap (w.vars x).data h' v'.data ∧ v'.cap ≤ 2 * D' + 8)) (hl : l.length ≤ D') :
    ∃ w', w.on x f = .ok (.unit, w') ∧ Inv T w' (Spec.upd s x l) D' L := by
  obtain ⟨v, h, e, r, fr, hc⟩ := wp_elim hf id
  refine ⟨⟨Spec.upd w.vars x v, h⟩, ?_, ?_⟩
  · simp [on, e]; rfl
  · exact ⟨I.winv.update (repOk T) r fr, I.bound.upd hD hl hc, fr.lim_eq.trans I.lim⟩

theorem query_ok {T : Traits} {w : QWorld α} {s : Vars α} {D L : Nat} (I : Inv T w s D L)
    {x : Nat} {f : Queue → M α (Out α)} {o : Out α}
    (hf : wp False (f (w.vars x)) w.heap (fun o' h' => o' = o ∧ h' = w.heap)) :
    ∃ w', w.query x f = .ok (o, w') ∧ Inv T w' s D L := by
  obtain ⟨v, h, e, r1, r2⟩ := wp_elim hf id
  subst r1 r2
  exact ⟨⟨w.vars, w.heap⟩, by simp [query, e]; rfl, I⟩

theorem assignTemp_ok {T : Traits} {w : QWorld α} {s : Vars α} {D D' L : Nat} (I : Inv T w s D L)
    (hD : D ≤ D') {x : Nat} {t : M α Queue} {l : List α}
    (ht : wp False t w.heap (fun v' h' => Queue.Rep T h' v' l ∧
      Frame w.heap none h' v'.data ∧ v'.cap ≤ 2 * D' + 8)) (hl : l.length ≤ D') :
    ∃ w', assignTemp T w x t = .ok w' ∧ Inv T w' (Spec.upd s x l) D' L := by
  obtain ⟨v, h1, e1, r, fr, hc⟩ := wp_elim ht id
  have hwf1 : h1.WF := fr.wf I.winv.wf (by simp)
  have rx : Queue.Rep T h1 (w.vars x) (s x) := by
    refine (I.winv.rep x).congr fr.next_le ?_
    intro j hj
    refine fr.other j (by simp) ?_
    intro e
    rcases fr.own with e' | ⟨e', _⟩
    · rw [e'] at e; simp at e
    · have := e' j e; have := (I.winv.rep x).lt j hj; omega
  obtain ⟨v2, h2, e2, rfl, fr2⟩ := wp_elim (Queue.wp_dtor (O := False) hwf1 rx) id
  have hwf2 : h2.WF := fr2.wf hwf1 rx.lt
  obtain ⟨v3, h3, e3, _, fr3⟩ := wp_elim (Queue.wp_dtor (O := False) hwf2 (Queue.Rep.nil T h2)) id
  have e3' : h3 = h2 := by
    have : Queue.dtor T Queue.nil h2 = .ok (Queue.nil, h2) := by
      cases hT : T.triv <;> simp [Queue.dtor, Queue.clear, Queue.nil, forLoop, hT] <;> rfl
    rw [this] at e3; injection e3 with e3; injection e3 with _ e3; exact e3.symm
  subst e3'
  refine ⟨⟨Spec.upd w.vars x v, h3⟩, ?_, ?_⟩
  · simp only [assignTemp]
    rw [e1]
    simp only [bind, Except.bind, e2, e3, pure, Except.pure]
  · exact ⟨I.winv.assign (repOk T) r fr fr2, I.bound.upd hD hl hc,
      fr2.lim_eq.trans (fr.lim_eq.trans I.lim)⟩

theorem moveAssign_ok {T : Traits} {w : QWorld α} {s : Vars α} {D L : Nat} (I : Inv T w s D L)
    (x y : Nat) : ∃ w', moveAssign T w x y = .ok w' ∧
      Inv T w' (Spec.upd (Spec.upd s x (if x = y then [] else s y)) y []) D L := by
  obtain ⟨v, h, e, rfl, fr⟩ := wp_elim (Queue.wp_dtor (O := False) I.winv.wf (I.winv.rep x)) id
  by_cases hxy : x = y
  · subst hxy
    refine ⟨⟨Spec.upd w.vars x Queue.nil, h⟩, ?_, ?_⟩
    · simp only [moveAssign]
      rw [e]
      show Except.ok _ = _
      congr 2
      funext z; by_cases hz : z = x <;> simp [Spec.upd, hz]
    · have : Spec.upd (Spec.upd s x (if x = x then [] else s x)) x [] = Spec.upd s x [] := by
        funext z; by_cases hz : z = x <;> simp [Spec.upd, hz]
      rw [this]
      exact ⟨I.winv.update (repOk T) (Queue.Rep.nil T h) fr, I.bound.upd (Nat.le_refl _) (by simp)
        (by simp [Queue.nil]), fr.lim_eq.trans I.lim⟩
  · refine ⟨⟨Spec.upd (Spec.upd w.vars x (w.vars y)) y Queue.nil, h⟩, ?_, ?_⟩
    · simp only [moveAssign]
      rw [e]
      show Except.ok _ = _
      congr 2
      funext z
      by_cases hz : z = y
      · simp [Spec.upd, hz]
      · by_cases hzx : z = x
        · have hyx : y ≠ x := Ne.symm hxy
          simp [Spec.upd, hz, hzx, hyx]
        · simp [Spec.upd, hz, hzx]
    · rw [if_neg hxy]
      refine ⟨I.winv.move (repOk T) hxy rfl (Queue.Rep.nil T) fr, ?_, fr.lim_eq.trans I.lim⟩
      exact (I.bound.upd (Nat.le_refl _) (I.bound y).1 (I.bound y).2).upd (Nat.le_refl _)
        (by simp) (by simp [Queue.nil])

theorem init_inv (T : Traits) (L : Nat) : Inv T (init L : QWorld α) (fun _ => []) 0 L := by
  refine ⟨⟨fun j _ => rfl, fun x => Queue.Rep.nil T _, ?_, ?_⟩, ?_, rfl⟩
  · intro x y j _ h; simp [init, Queue.nil] at h
  · intro j h; simp [init, Heap.empty] at h
  · intro x; simp [init, Queue.nil]

theorem finish_spec {T : Traits} {L : Nat} : ∀ (xs : List Nat) (w : QWorld α) (s : Vars α) (D : Nat),
    Inv T w s D L → ∃ w' s', finish T w xs = .ok w' ∧ Inv T w' s' D L ∧
      (∀ x ∈ xs, w'.vars x = Queue.nil) ∧ (∀ x, w.vars x = Queue.nil → w'.vars x = Queue.nil) := by
  intro xs
  induction xs with
  | nil => intro w s D I; exact ⟨w, s, rfl, I, by simp, fun _ h => h⟩
  | cons x xs ih =>
    intro w s D I
    obtain ⟨v, h, e, rfl, fr⟩ := wp_elim (Queue.wp_dtor (O := False) I.winv.wf (I.winv.rep x)) id
    have I1 : Inv T ⟨Spec.upd w.vars x Queue.nil, h⟩ (Spec.upd s x []) D L :=
      ⟨I.winv.update (repOk T) (Queue.Rep.nil T h) fr, I.bound.upd (Nat.le_refl _) (by simp)
        (by simp [Queue.nil]), fr.lim_eq.trans I.lim⟩
    obtain ⟨w', s', e', I', h1, h2⟩ := ih _ _ _ I1
    refine ⟨w', s', ?_, I', ?_, ?_⟩
    · simp [finish, on, e, e', bind, Except.bind, pure, Except.pure]
    · intro y hy
      rcases List.mem_cons.mp hy with rfl | hy
      · exact h2 _ (by simp)
      · exact h1 y hy
    · intro y hy
      apply h2
      by_cases hyx : y = x
      · subst hyx; simp
      · simp only [upd_ne _ _ hyx]; exact hy

variable [DecidableEq α]

/-- One operation: the implementation does what the specification says. -/
theorem step_spec {T : Traits} {w : QWorld α} {s : Vars α} {D L : Nat} (I : Inv T w s D L)
    (op : QOp α) (hL : 2 * (D + op.demand) + 8 ≤ L) (hM : L ≤ 2 ^ 63) (hF : op.fine T.triv s) :
    match qStep s op with
    | some (o, s') => ∃ w', step T w op = .ok (o, w') ∧ Inv T w' s' (D + op.demand) L
    | none => step T w op = .error .die := by
  have hwf := I.winv.wf
  have hlim := I.lim
  have hm : w.heap.lim ≤ 2 ^ 63 := by omega
  cases op with
  | fresh x n =>
    simp only [QOp.demand] at hL ⊢
    obtain ⟨w', e, I'⟩ := assignTemp_ok (D' := D + n) I (by omega) (x := x) (l := [])
      (wp_mono (Queue.wp_withCapacity (O := False) (T := T) (n := n) (h := w.heap) hm (by omega)) id
        (by rintro v h ⟨a, b, c⟩; exact ⟨a, b, by omega⟩)) (by simp)
    exact ⟨w', by simp only [step, e]; rfl, I'⟩
  | push x a =>
    simp only [QOp.demand] at hL ⊢
    have hb := I.bound x
    have hr := I.winv.rep x
    simp only [qStep, step]
    refine on_ok (D' := D + 1) I (by omega) (wp_mono (Queue.wp_push (O := False) hwf hm hr ?_) id ?_)
      (by simp; omega)
    · have := hr.1; intro h1 h2; omega
    · rintro v h ⟨a, b, c⟩; have := hr.1; exact ⟨a, b, by omega⟩
  | pushOwn x i =>
    simp only [QOp.demand] at hL ⊢
    have hb := I.bound x
    have hr := I.winv.rep x
    by_cases hi : i < (s x).length
    · simp only [qStep, step, List.getElem?_eq_getElem hi, Option.map_some]
      refine on_ok (D' := D + 1) I (by omega) (wp_mono (Queue.wp_pushOwn (O := False) hwf hm hr hi ?_) id ?_)
        (by simp; omega)
      · have := hr.1; intro h1 h2; omega
      · rintro v h ⟨a, b, c⟩; have := hr.1; exact ⟨a, b, by omega⟩
    · simp only [qStep, List.getElem?_eq_none (by omega : (s x).length ≤ i), Option.map_none]
      simp [step, on, Queue.pushOwn, Queue.get, require, hr.1, hi, bind, StateT.bind, Except.bind]
  | pop x =>
    simp only [QOp.demand] at hL ⊢
    have hb := I.bound x
    have hr := I.winv.rep x
    by_cases hl : s x = []
    · simp only [qStep, hl, if_true]
      simp [step, on, Queue.pop, require, hr.1, hl, bind, StateT.bind, Except.bind]
    · simp only [qStep, step, hl, if_false]
      refine on_ok (D' := D + 0) I (by omega) (wp_mono (Queue.wp_pop (O := False) hr hl) id ?_)
        (by simp; omega)
      rintro v h ⟨a, b, c⟩; exact ⟨a, b, by omega⟩
  | clear x =>
    simp only [QOp.demand] at hL ⊢
    have hb := I.bound x
    simp only [qStep, step]
    refine on_ok (D' := D + 0) I (by omega) (wp_mono (Queue.wp_clear (O := False) (I.winv.rep x)) id ?_)
      (by simp)
    rintro v h ⟨a, b, c⟩; exact ⟨a, b, by omega⟩
  | reserve x n =>
    simp only [QOp.demand] at hL ⊢
    have hb := I.bound x
    simp only [qStep]
    have := on_ok (D' := D + n) I (by omega) (x := x) (f := fun v => Queue.reserve T v n)
      (wp_mono (Queue.wp_reserve (O := False) hwf hm (I.winv.rep x) (by omega)) id
        (by rintro v h ⟨a, b, c⟩; exact ⟨a, b, by omega⟩)) (by omega)
    rwa [upd_eq] at this
  | set x i a =>
    simp only [QOp.demand] at hL ⊢
    have hb := I.bound x
    have hr := I.winv.rep x
    by_cases hi : i < (s x).length
    · simp only [qStep, step, hi, if_true]
      refine on_ok (D' := D + 0) I (by omega) ?_ (by simp; omega)
      rw [wp_bind]
      refine wp_mono (Queue.wp_set (O := False) hr hi a) id ?_
      rintro _ h ⟨e1, e2⟩
      rw [wp_pure]; exact ⟨e1, e2, by omega⟩
    · simp only [qStep, hi, if_false]
      simp [step, on, Queue.set, require, hr.1, hi, bind, StateT.bind, Except.bind]
  | moveAssign x y =>
    simp only [QOp.demand, Nat.add_zero] at hL ⊢
    obtain ⟨w', e, I'⟩ := moveAssign_ok I x y
    exact ⟨w', by simp only [step, e]; rfl, I'⟩
  | cloneAssign x y =>
    simp only [QOp.demand, Nat.add_zero] at hL ⊢
    have hb := I.bound y
    obtain ⟨w', e, I'⟩ := assignTemp_ok (D' := D) I (by omega) (x := x) (l := s y)
      (wp_mono (Queue.wp_clone_triv (O := False) (T := T) hF (I.winv.rep y) (by omega)) id
        (by rintro v h ⟨a, b, c⟩; exact ⟨a, b, by omega⟩)) (by omega)
    exact ⟨w', by simp only [step, e]; rfl, I'⟩
  | scopeEnd x =>
    simp only [QOp.demand, Nat.add_zero] at hL ⊢
    simp only [qStep, step]
    refine on_ok (D' := D) I (by omega) (wp_mono (Queue.wp_dtor (O := False) hwf (I.winv.rep x)) id ?_)
      (by simp)
    rintro v h ⟨rfl, b⟩; exact ⟨Queue.Rep.nil T h, b, by simp [Queue.nil]⟩
  | get x i =>
    simp only [QOp.demand, Nat.add_zero] at hL ⊢
    have hr := I.winv.rep x
    by_cases hi : i < (s x).length
    · simp only [qStep, step, List.getElem?_eq_getElem hi, Option.map_some]
      refine query_ok I ?_
      rw [wp_bind]
      refine wp_mono (Queue.wp_get (O := False) hr hi) id ?_
      rintro a h ⟨rfl, rfl⟩; rw [wp_pure]; exact ⟨rfl, rfl⟩
    · simp only [qStep, List.getElem?_eq_none (by omega : (s x).length ≤ i), Option.map_none]
      simp [step, query, Queue.get, require, hr.1, hi, bind, StateT.bind, Except.bind]
  | front x =>
    simp only [QOp.demand, Nat.add_zero] at hL ⊢
    have hr := I.winv.rep x
    by_cases hl : s x = []
    · simp only [qStep, hl, List.head?_nil, Option.map_none]
      simp [step, query, Queue.front, require, hr.1, hl, bind, StateT.bind, Except.bind]
    · simp only [qStep, step, List.head?_eq_some_head hl, Option.map_some]
      refine query_ok I ?_
      rw [wp_bind]
      refine wp_mono (Queue.wp_front (O := False) hr hl) id ?_
      rintro a h ⟨rfl, rfl⟩; rw [wp_pure]; exact ⟨rfl, rfl⟩
  | back x =>
    simp only [QOp.demand, Nat.add_zero] at hL ⊢
    have hr := I.winv.rep x
    by_cases hl : s x = []
    · simp only [qStep, hl, List.getLast?_nil, Option.map_none]
      simp [step, query, Queue.back, require, hr.1, hl, bind, StateT.bind, Except.bind]
    · simp only [qStep, step, List.getLast?_eq_some_getLast hl, Option.map_some]
      refine query_ok I ?_
      rw [wp_bind]
      refine wp_mono (Queue.wp_back (O := False) hr hl) id ?_
      rintro a h ⟨rfl, rfl⟩; rw [wp_pure]; exact ⟨rfl, rfl⟩
  | penultimate x =>
    simp only [QOp.demand, Nat.add_zero] at hL ⊢
    have hr := I.winv.rep x
    by_cases hl : 1 < (s x).length
    · have hne : (s x).dropLast ≠ [] := by
        intro e; have := congrArg List.length e; simp at this; omega
      have hv : (s x).dropLast.getLast hne = (s x)[(s x).length - 2]'(by omega) := by
        rw [List.getLast_eq_getElem]; simp; congr 1
      simp only [qStep, step, List.getLast?_eq_some_getLast hne, Option.map_some, hv]
      refine query_ok I ?_
      rw [wp_bind]
      refine wp_mono (Queue.wp_penultimate (O := False) hr hl) id ?_
      rintro a h ⟨rfl, rfl⟩; rw [wp_pure]; exact ⟨rfl, rfl⟩
    · have he : (s x).dropLast = [] := by
        rw [← List.length_eq_zero_iff]; simp; omega
      simp only [qStep, he, List.getLast?_nil, Option.map_none]
      simp [step, query, Queue.penultimate, require, hr.1, hl, bind, StateT.bind, Except.bind]
  | eraseFirst x a =>
    simp only [QOp.demand, Nat.add_zero] at hL ⊢
    have hr := I.winv.rep x
    have hb := I.bound x
    obtain ⟨p, h, e, e1, r, fr, hc⟩ := wp_elim (Queue.wp_eraseFirst (O := False) hr hF) id
    obtain ⟨found, q⟩ := p
    simp only at e1 r fr hc
    simp only [qStep, step]
    refine ⟨⟨Spec.upd w.vars x q, h⟩, ?_, ?_⟩
    · simp only [erase, bind, Except.bind]
      rw [e]
      simp only [pure, Except.pure, e1, decide_eq_true_eq]
    · exact ⟨I.winv.update (repOk T) r fr,
        I.bound.upd (Nat.le_refl _) (by have := List.length_erase_le (a := a) (l := s x); omega) (by omega),
        fr.lim_eq.trans I.lim⟩
  | length x =>
    simp only [QOp.demand, Nat.add_zero] at hL ⊢
    simp only [qStep, step]
    refine query_ok I ?_
    rw [wp_pure]; exact ⟨by rw [(I.winv.rep x).1], rfl⟩
  | elems x =>
    simp only [QOp.demand, Nat.add_zero] at hL ⊢
    simp only [qStep, step]
    refine query_ok I ?_
    have hr := I.winv.rep x
    rw [wp_bind]
    refine wp_mono (Queue.wp_iterate (O := False) hr _ 0 (by have := hr.1; omega)) id ?_
    rintro a h ⟨rfl, rfl⟩; rw [wp_pure]; exact ⟨by simp, rfl⟩

theorem run_spec {T : Traits} {L : Nat} : ∀ (ops : List (QOp α)) (w : QWorld α)
    (s : Vars α) (D : Nat), Inv T w s D L → 2 * (D + qDemand ops) + 8 ≤ L → L ≤ 2 ^ 63 →
    Spec.qFine T.triv s ops →
    match qRun s ops with
    | some (os, s') => ∃ w', run T w ops = .ok (os, w') ∧ Inv T w' s' (D + qDemand ops) L
    | none => run T w ops = .error .die := by
  intro ops
  induction ops with
  | nil => intro w s D I _ _ _; exact ⟨w, rfl, by simpa [qDemand] using I⟩
  | cons op ops ih =>
    intro w s D I hL hM hF
    have hdem : qDemand (op :: ops) = op.demand + qDemand ops := by simp [qDemand]
    have h1 := step_spec I op (by omega) hM hF.1
    simp only [qRun]
    cases hs : qStep s op with
    | none =>
      simp only [hs] at h1 ⊢
      simp [run, h1, bind, Except.bind]
    | some p =>
      obtain ⟨o, s1⟩ := p
      simp only [hs] at h1 ⊢
      obtain ⟨w1, e1, I1⟩ := h1
      have hF2 := hF.2
      simp only [hs] at hF2
      have h2 := ih w1 s1 _ I1 (by omega) hM hF2
      cases hr : qRun s1 ops with
      | none =>
        simp only [hr] at h2 ⊢
        simp [run, e1, h2, bind, Except.bind]
      | some p =>
        obtain ⟨os, s2⟩ := p
        simp only [hr] at h2 ⊢
        obtain ⟨w2, e2, I2⟩ := h2
        refine ⟨w2, ?_, ?_⟩
        · simp [run, e1, e2, bind, Except.bind, pure, Except.pure]
        · rw [hdem, ← Nat.add_assoc]; exact I2

/-- Variables a program does not mention are not touched. -/
theorem step_vars {T : Traits} {w w' : QWorld α} {op : QOp α} {o : Out α}
    (e : step T w op = .ok (o, w')) : ∀ x, x ∉ op.targets → w'.vars x = w.vars x := by
  intro z hz
  have hon : ∀ x f, w.on x f = .ok (o, w') → z ≠ x → w'.vars z = w.vars z := by
    intro x f e hzx
    simp only [on, bind, Except.bind, pure, Except.pure] at e
    cases hf : f (w.vars x) w.heap with
    | error _ => simp [hf] at e
    | ok p =>
      simp only [hf] at e
      injection e with e; injection e with _ e
      rw [← e]; exact upd_ne _ _ hzx
  have hq : ∀ x f, w.query x f = .ok (o, w') → w'.vars z = w.vars z := by
    intro x f e
    simp only [query, bind, Except.bind, pure, Except.pure] at e
    cases hf : f (w.vars x) w.heap with
    | error _ => simp [hf] at e
    | ok p =>
      simp only [hf] at e
      injection e with e; injection e with _ e
      rw [← e]
  have ht : ∀ x t, assignTemp T w x t = .ok w' → z ≠ x → w'.vars z = w.vars z := by
    intro x t e hzx
    simp only [assignTemp, bind, Except.bind, pure, Except.pure] at e
    split at e
    · simp at e
    · split at e
      · simp at e
      · split at e
        · simp at e
        · injection e with e; rw [← e]; exact upd_ne _ _ hzx
  cases op with
  | fresh x n =>
    simp only [step, bind, Except.bind, pure, Except.pure] at e
    cases ha : assignTemp T w x (Queue.withCapacity n) with
    | error _ => simp [ha] at e
    | ok w1 =>
      simp only [ha] at e; injection e with e; injection e with _ e; subst e
      exact ht _ _ ha (by simpa [QOp.targets] using hz)
  | cloneAssign x y =>
    simp only [step, bind, Except.bind, pure, Except.pure] at e
    cases ha : assignTemp T w x (Queue.clone T (w.vars y)) with
    | error _ => simp [ha] at e
    | ok w1 =>
      simp only [ha] at e; injection e with e; injection e with _ e; subst e
      simp [QOp.targets] at hz
      exact ht _ _ ha hz.1
  | moveAssign x y =>
    simp only [step, bind, Except.bind, pure, Except.pure, moveAssign] at e
    cases ha : Queue.dtor T (w.vars x) w.heap with
    | error _ => simp [ha] at e
    | ok w1 =>
      simp only [ha] at e; injection e with e; injection e with _ e; subst e
      simp [QOp.targets] at hz
      simp only
      rw [upd_ne _ _ hz.2, upd_ne _ _ hz.1, upd_ne _ _ hz.1]
  | get x i => simp only [step] at e; exact hq _ _ e
  | front x => simp only [step] at e; exact hq _ _ e
  | back x => simp only [step] at e; exact hq _ _ e
  | length x => simp only [step] at e; exact hq _ _ e
  | penultimate x => simp only [step] at e; exact hq _ _ e
  | eraseFirst x a =>
    simp only [step, erase, bind, Except.bind, pure, Except.pure] at e
    cases hf : Queue.eraseFirst T (w.vars x) a w.heap with
    | error _ => simp [hf] at e
    | ok p =>
      simp only [hf] at e
      injection e with e; injection e with _ e
      rw [← e]; exact upd_ne _ _ (by simpa [QOp.targets] using hz)
  | elems x => simp only [step] at e; exact hq _ _ e
  | push x a => simp only [step] at e; exact hon _ _ e (by simpa [QOp.targets] using hz)
  | pushOwn x a => simp only [step] at e; exact hon _ _ e (by simpa [QOp.targets] using hz)
  | pop x => simp only [step] at e; exact hon _ _ e (by simpa [QOp.targets] using hz)
  | clear x => simp only [step] at e; exact hon _ _ e (by simpa [QOp.targets] using hz)
  | reserve x n => simp only [step] at e; exact hon _ _ e (by simpa [QOp.targets] using hz)
  | set x i a => simp only [step] at e; exact hon _ _ e (by simpa [QOp.targets] using hz)
  | scopeEnd x => simp only [step] at e; exact hon _ _ e (by simpa [QOp.targets] using hz)

theorem run_vars {T : Traits} : ∀ (ops : List (QOp α)) (w w' : QWorld α)
    (os : List (Out α)), run T w ops = .ok (os, w') →
    ∀ x, (∀ op ∈ ops, x ∉ op.targets) → w'.vars x = w.vars x := by
  intro ops
  induction ops with
  | nil =>
    intro w w' os e x _
    simp [run] at e; rw [e.2]
  | cons op ops ih =>
    intro w w' os e x hx
    simp only [run, bind, Except.bind, pure, Except.pure] at e
    cases h1 : step T w op with
    | error _ => simp [h1] at e
    | ok p =>
      simp only [h1] at e
      cases h2 : run T p.2 ops with
      | error _ => simp [h2] at e
      | ok q =>
        simp only [h2] at e
        injection e with e; injection e with _ e; subst e
        rw [ih p.2 q.2 q.1 h2 x (fun op hop => hx op (by simp [hop]))]
        exact step_vars (o := p.1) (w' := p.2) h1 x (hx op (by simp))

end QWorld
end Rpp
