import Verif.Proof.HeapRun

/-!
# Properties of `rpp::Heap`

Elements are compared by an arbitrary strict weak order `lt`; `T.triv` distinguishes plain data from
owning elements. `lim` is what malloc can provide.
-/

namespace Rpp.Props
open Rpp Rpp.Spec

variable {α : Type}

theorem inv_nil (T : Traits) (lt : α → α → Bool) (lim : Nat) :
    PHeap.Inv T lt (Heap.empty lim) Vec.nil [] 0 :=
  ⟨fun _ _ => rfl, fun _ _ => rfl, ⟨[], Vec.Rep.nil T _, .refl _, PHeap.HeapOrd.nil lt⟩, by simp,
    by simp [Vec.nil]⟩

/-- **C20.** Every program on a heap behaves like a bag whose `top` is a smallest element: `top`
and `take` return, and `pop` removes, an element that nothing in the bag precedes. `pop` on an empty
heap ends the process. -/
theorem C20_heap_top_is_min {T : Traits} {lt : α → α → Bool} (hs : SWO lt) (ops : List (HOp α))
    (lim : Nat) (hL : 2 * hDemand ops + 8 ≤ lim) :
    ∃ e, HTrace lt [] ops (PHeap.run T lt Vec.nil (Heap.empty lim) ops).1 e ∧
      (e = .inl .popEmpty → (PHeap.run T lt Vec.nil (Heap.empty lim) ops).2 = .error .die) ∧
      (∀ b, e = .inr b → ∃ v h, (PHeap.run T lt Vec.nil (Heap.empty lim) ops).2 = .ok (v, h) ∧
        v.len = b.length) := by
  obtain ⟨e, t, en⟩ := PHeap.run_spec hs ops Vec.nil [] (Heap.empty lim) 0 (inv_nil T lt lim)
    (by simpa [Heap.empty] using hL)
  refine ⟨e, t, ?_, ?_⟩
  · rintro rfl
    generalize (PHeap.run T lt Vec.nil (Heap.empty lim) ops).2 = r at en
    cases en; rfl
  · rintro b rfl
    generalize (PHeap.run T lt Vec.nil (Heap.empty lim) ops).2 = r at en
    cases en with
    | ok h1 h2 h3 => exact ⟨_, _, rfl, h1⟩

/-- **C74.** A program that does not call `top` on an empty heap never commits a memory error, never
runs out of memory below `lim` and never loses an element: it ends at the assert of `pop` on an empty heap, or the
destructor afterwards releases every element and every block. -/
theorem C74_heap_owns_elements_once {T : Traits} {lt : α → α → Bool} (hs : SWO lt)
    (ops : List (HOp α)) (lim : Nat) (hL : 2 * hDemand ops + 8 ≤ lim) :
    ∃ e, HTrace lt [] ops (PHeap.run T lt Vec.nil (Heap.empty lim) ops).1 e ∧
      (e ≠ .inl .topEmpty →
        (e = .inl .popEmpty ∧ (PHeap.run T lt Vec.nil (Heap.empty lim) ops).2 = .error .die) ∨
        ∃ v h h', (PHeap.run T lt Vec.nil (Heap.empty lim) ops).2 = .ok (v, h) ∧
          Vec.dtor T v h = .ok (Vec.nil, h') ∧ ∀ j, h'.blk j = none) := by
  obtain ⟨e, t, en⟩ := PHeap.run_spec hs ops Vec.nil [] (Heap.empty lim) 0 (inv_nil T lt lim)
    (by simpa [Heap.empty] using hL)
  refine ⟨e, t, fun hne => ?_⟩
  generalize (PHeap.run T lt Vec.nil (Heap.empty lim) ops).2 = r at en
  cases en with
  | popEmpty => exact Or.inl ⟨rfl, rfl⟩
  | topEmpty => exact absurd rfl hne
  | ok h1 h2 h3 => exact Or.inr ⟨_, _, _, rfl, h2, h3⟩

theorem drain_trace {lt : α → α → Bool} : ∀ (n : Nat) (b : List α) (os : List (Out α)) (e),
    b.length = n → HTrace lt b (List.replicate n .take) os e →
    e = .inr [] ∧ ∃ xs : List α, os = xs.map Out.val ∧ xs.Perm b ∧ xs.Pairwise (fun x y => lt y x = false) := by
  intro n
  induction n with
  | zero =>
    intro b os e hb t
    have : b = [] := List.length_eq_zero_iff.mp hb
    subst this
    cases t
    exact ⟨rfl, [], rfl, .refl _, .nil⟩
  | succ n ih =>
    intro b os e hb t
    rw [List.replicate_succ] at t
    cases t with
    | take hm hp t' =>
      have := hp.length_eq
      obtain ⟨e1, xs, e2, p, s⟩ := ih _ _ _ (by simp at this; omega) t'
      refine ⟨e1, _ :: xs, by rw [e2]; rfl, (p.cons _).trans hp.symm, .cons ?_ s⟩
      intro y hy
      exact hm.2 y (hp.mem_iff.mpr (List.mem_cons_of_mem _ (p.mem_iff.mp hy)))
    | takeEmpty => simp at hb

theorem push_trace {lt : α → α → Bool} : ∀ (l b : List α) (ops) (os : List (Out α)) (e),
    HTrace lt b (l.map HOp.push ++ ops) os e →
    ∃ os', os = List.replicate l.length .unit ++ os' ∧ HTrace lt (l.reverse ++ b) ops os' e := by
  intro l
  induction l with
  | nil => intro b ops os e t; exact ⟨os, rfl, t⟩
  | cons a l ih =>
    intro b ops os e t
    cases t with
    | push t' =>
      obtain ⟨os', e1, t''⟩ := ih _ _ _ _ t'
      exact ⟨os', by rw [e1]; simp [List.replicate_succ], by simpa using t''⟩

theorem demand_drain (l : List α) (n : Nat) :
    hDemand (l.map HOp.push ++ List.replicate n .take) = l.length := by
  have : (l.map fun _ => 1).sum = l.length := by induction l <;> simp_all <;> omega
  simp [hDemand, HOp.demand, Function.comp_def, this]

/-- **C21.** Pushing any list and then taking as many elements returns a sorted rearrangement of
it. -/
theorem C21_heap_drain_sorts {T : Traits} {lt : α → α → Bool} (hs : SWO lt) (l : List α)
    (lim : Nat) (hL : 2 * l.length + 8 ≤ lim) :
    ∃ (xs : List α) (v : Vec) (h : Heap α), PHeap.run T lt Vec.nil (Heap.empty lim)
        (l.map HOp.push ++ List.replicate l.length .take) =
        (List.replicate l.length .unit ++ xs.map Out.val, .ok (v, h)) ∧
      xs.Perm l ∧ xs.Pairwise (fun x y => lt y x = false) ∧ v.len = 0 := by
  obtain ⟨e, t, -, en⟩ := C20_heap_top_is_min (T := T) hs
    (l.map HOp.push ++ List.replicate l.length .take) lim (by rw [demand_drain]; exact hL)
  obtain ⟨os, e1, t1⟩ := push_trace _ _ _ _ _ t
  obtain ⟨e2, xs, e3, p, s⟩ := drain_trace _ _ _ _ (by simp) t1
  obtain ⟨v, h, e4, hv⟩ := en _ e2
  refine ⟨xs, v, h, ?_, by simpa using p.trans (by simp), s, hv⟩
  rw [← e4, ← e3, ← e1]

theorem trace_append {lt : α → α → Bool} : ∀ (ops ops' : List (HOp α)) (b : List α) (os : List (Out α)) (e),
    HTrace lt b (ops ++ ops') os e →
    (∃ s, e = .inl s ∧ HTrace lt b ops os e) ∨
    ∃ os1 os2 b', os = os1 ++ os2 ∧ HTrace lt b ops os1 (.inr b') ∧ HTrace lt b' ops' os2 e := by
  intro ops
  induction ops with
  | nil => intro ops' b os e t; exact .inr ⟨[], os, b, rfl, .nil b, t⟩
  | cons op ops ih =>
    intro ops' b os e t
    cases t with
    | popEmpty => exact .inl ⟨_, rfl, .popEmpty⟩
    | topEmpty => exact .inl ⟨_, rfl, .topEmpty⟩
    | takeEmpty => exact .inl ⟨_, rfl, .takeEmpty⟩
    | push t =>
      rcases ih _ _ _ _ t with ⟨s, h1, h2⟩ | ⟨o1, o2, b', rfl, h2, h3⟩
      · exact .inl ⟨s, h1, .push h2⟩
      · exact .inr ⟨_ :: o1, o2, b', rfl, .push h2, h3⟩
    | pop m p t =>
      rcases ih _ _ _ _ t with ⟨s, h1, h2⟩ | ⟨o1, o2, b', rfl, h2, h3⟩
      · exact .inl ⟨s, h1, .pop m p h2⟩
      · exact .inr ⟨_ :: o1, o2, b', rfl, .pop m p h2, h3⟩
    | top m t =>
      rcases ih _ _ _ _ t with ⟨s, h1, h2⟩ | ⟨o1, o2, b', rfl, h2, h3⟩
      · exact .inl ⟨s, h1, .top m h2⟩
      · exact .inr ⟨_ :: o1, o2, b', rfl, .top m h2, h3⟩
    | take m p t =>
      rcases ih _ _ _ _ t with ⟨s, h1, h2⟩ | ⟨o1, o2, b', rfl, h2, h3⟩
      · exact .inl ⟨s, h1, .take m p h2⟩
      · exact .inr ⟨_ :: o1, o2, b', rfl, .take m p h2, h3⟩
    | length t =>
      rcases ih _ _ _ _ t with ⟨s, h1, h2⟩ | ⟨o1, o2, b', rfl, h2, h3⟩
      · exact .inl ⟨s, h1, .length h2⟩
      · exact .inr ⟨_ :: o1, o2, b', rfl, .length h2, h3⟩
    | clear t =>
      rcases ih _ _ _ _ t with ⟨s, h1, h2⟩ | ⟨o1, o2, b', rfl, h2, h3⟩
      · exact .inl ⟨s, h1, .clear h2⟩
      · exact .inr ⟨_ :: o1, o2, b', rfl, .clear h2, h3⟩
    | reserve t =>
      rcases ih _ _ _ _ t with ⟨s, h1, h2⟩ | ⟨o1, o2, b', rfl, h2, h3⟩
      · exact .inl ⟨s, h1, .reserve h2⟩
      · exact .inr ⟨_ :: o1, o2, b', rfl, .reserve h2, h3⟩
    | elems p t =>
      rcases ih _ _ _ _ t with ⟨s, h1, h2⟩ | ⟨o1, o2, b', rfl, h2, h3⟩
      · exact .inl ⟨s, h1, .elems p h2⟩
      · exact .inr ⟨_ :: o1, o2, b', rfl, .elems p h2, h3⟩
    | reclone t =>
      rcases ih _ _ _ _ t with ⟨s, h1, h2⟩ | ⟨o1, o2, b', rfl, h2, h3⟩
      · exact .inl ⟨s, h1, .reclone h2⟩
      · exact .inr ⟨_ :: o1, o2, b', rfl, .reclone h2, h3⟩

theorem run_append (T : Traits) (lt : α → α → Bool) : ∀ (ops ops' : List (HOp α)) (v : Vec) (h : Heap α) (v' : Vec) (h' : Heap α),
    (PHeap.run T lt v h ops).2 = .ok (v', h') →
    PHeap.run T lt v h (ops ++ ops') =
      ((PHeap.run T lt v h ops).1 ++ (PHeap.run T lt v' h' ops').1, (PHeap.run T lt v' h' ops').2) := by
  intro ops
  induction ops with
  | nil =>
    intro ops' v h v' h' e
    simp only [PHeap.run, Except.ok.injEq, Prod.mk.injEq] at e
    obtain ⟨rfl, rfl⟩ := e
    simp [PHeap.run]
  | cons op ops ih =>
    intro ops' v h v' h' e
    simp only [List.cons_append, PHeap.run] at e ⊢
    split at e
    · cases e
    · rename_i o v1 h1 hst
      simp only [hst]
      have := ih ops' v1 h1 v' h' e
      simp only [this, List.cons_append]

theorem run_length (T : Traits) (lt : α → α → Bool) : ∀ (ops : List (HOp α)) (v : Vec) (h : Heap α) (r),
    (PHeap.run T lt v h ops).2 = .ok r → (PHeap.run T lt v h ops).1.length = ops.length := by
  intro ops
  induction ops with
  | nil => intros; rfl
  | cons op ops ih =>
    intro v h r e
    simp only [PHeap.run] at e ⊢
    split at e
    · cases e
    · simp only [List.length_cons, ih _ _ _ e]

/-- How many elements a program leaves. -/
def leftOver : Nat → List (HOp α) → Nat
  | n, [] => n
  | n, .push _ :: ops => leftOver (n + 1) ops
  | n, .pop :: ops | n, .take :: ops => leftOver (n - 1) ops
  | _, .clear :: ops => leftOver 0 ops
  | n, _ :: ops => leftOver n ops

theorem trace_length {lt : α → α → Bool} {b : List α} {ops : List (HOp α)} {os : List (Out α)} {e}
    (t : HTrace lt b ops os e) : (∀ b', e = .inr b' → os.length = ops.length ∧ b'.length = leftOver b.length ops) ∧
      (e = .inl .popEmpty → os.length < ops.length) := by
  induction t with
  | nil b => simp [leftOver]
  | popEmpty => simp
  | topEmpty => simp
  | takeEmpty => simp
  | pop m p t ih =>
    have := p.length_eq
    simp only [List.length_cons] at this
    simpa [leftOver, this] using ih
  | take m p t ih =>
    have := p.length_eq
    simp only [List.length_cons] at this
    simpa [leftOver, this] using ih
  | _ => simp_all [leftOver]

/-- **C21**, in every reachable state: after any program that ran to its end, with bag `b`, taking `length()` elements
returns a sorted rearrangement of `b` and leaves the heap empty. -/
theorem C21_heap_drain_sorts_any {T : Traits} {lt : α → α → Bool} (hs : SWO lt) (ops : List (HOp α))
    (lim : Nat) (hL : 2 * hDemand ops + 8 ≤ lim) {v : Vec} {h : Heap α}
    (hr : (PHeap.run T lt Vec.nil (Heap.empty lim) ops).2 = .ok (v, h))
    (hn : ∀ os, ¬ HTrace lt [] ops os (.inl .topEmpty)) :
    ∃ (b xs : List α) (v' : Vec) (h' : Heap α),
      HTrace lt [] ops (PHeap.run T lt Vec.nil (Heap.empty lim) ops).1 (.inr b) ∧
      PHeap.run T lt v h (List.replicate v.len .take) = (xs.map Out.val, .ok (v', h')) ∧
      xs.Perm b ∧ xs.Pairwise (fun x y => lt y x = false) ∧ v'.len = 0 := by
  obtain ⟨e, t, en⟩ := PHeap.run_spec (T := T) hs (ops ++ List.replicate v.len .take) Vec.nil [] (Heap.empty lim) 0
    (inv_nil T lt lim) (by simpa [Heap.empty, hDemand, HOp.demand] using hL)
  rw [run_append T lt ops _ _ _ v h hr] at t en
  have hl := run_length T lt ops _ _ _ hr
  obtain ⟨e0, t0, -, en0⟩ := C20_heap_top_is_min (T := T) hs ops lim hL
  rcases trace_append _ _ _ _ _ t with ⟨s, rfl, h2⟩ | ⟨os1, os2, b, ho, t1, t2⟩
  · cases s with
    | topEmpty => exact absurd h2 (hn _)
    | popEmpty =>
      have := (trace_length h2).2 rfl
      simp only [List.length_append, hl] at this
      omega
  · obtain ⟨l1, l2⟩ := (trace_length t1).1 b rfl
    obtain ⟨rfl, rfl⟩ := List.append_inj ho (hl.trans l1.symm)
    have hv : b.length = v.len := by
      cases e0 with
      | inl s =>
        cases s with
        | topEmpty => exact absurd t0 (hn _)
        | popEmpty =>
          have := (trace_length t0).2 rfl
          omega
      | inr b0 =>
        obtain ⟨v0, h0, e1, e2⟩ := en0 b0 rfl
        rw [hr] at e1
        cases e1
        rw [e2, l2, ((trace_length t0).1 b0 rfl).2]
    obtain ⟨rfl, xs, e3, p, srt⟩ := drain_trace _ _ _ _ hv t2
    generalize hq : PHeap.run T lt v h (List.replicate v.len .take) = q at *
    obtain ⟨q1, q2⟩ := q
    dsimp only at *
    cases en with
    | ok h1 h2 h3 => exact ⟨b, xs, _, _, t1, by rw [e3], p, srt, h1⟩

/-! ### Examples and limits -/

/-- Natural numbers under `<`, and pairs compared by their first component only. -/
example : SWO (fun a b : Nat => decide (a < b)) :=
  ⟨fun h => by simp at h ⊢; omega, fun h h' => by simp at h h' ⊢; omega⟩

example : SWO (fun a b : Nat × Nat => decide (a.1 < b.1)) :=
  ⟨fun h => by simp at h ⊢; omega, fun h h' => by simp at h h' ⊢; omega⟩

-- C21: a program that does not look at an empty heap
example : ∀ os e, HTrace (fun a b : Nat => decide (a < b)) [] [.push 5, .push 2, .pop, .push 2] os e →
    e ≠ .inl .topEmpty := by
  intro os e t
  cases t with | push t =>
  cases t with | push t =>
  cases t with | pop m p t =>
  cases t with | push t =>
  cases t
  intro h
  cases h

example : (PHeap.run ⟨false⟩ (fun a b : Nat => decide (a < b)) Vec.nil (Heap.empty 100)
    [.push 5, .push 2, .push 9, .push 2, .push 7, .top, .pop, .take, .reclone, .length, .take, .take,
      .take]).1 = [.unit, .unit, .unit, .unit, .unit, .val 2, .unit, .val 2, .unit, .num 3, .val 5,
      .val 7, .val 9] := by decide +kernel

/-- `top` on an empty heap is not caught: with owning elements it reads a dead object, … -/
theorem C20_top_empty_is_ub :
    (PHeap.run ⟨false⟩ (fun a b : Nat => decide (a < b)) Vec.nil (Heap.empty 100)
      [.push 5, .pop, .top]).2.isOk = false ∧
    (PHeap.run ⟨true⟩ (fun a b : Nat => decide (a < b)) Vec.nil (Heap.empty 100)
      [.push 5, .pop, .top]).1 = [.unit, .unit, .val 5] := by decide +kernel

end Rpp.Props
