import Verif.Proof.QueueClone
import Verif.Proof.QErase

/-!
# Properties of `Queue` (C16, C17, C18, C19)

`qFine` (in `Verif/Spec/Queue.lean`) singles out the calls of `clone` and `erase_first` that the code
gets right; programs that use neither are always fine (`qFine_of_plain`).
-/

namespace Rpp.Props
open Rpp Rpp.Spec

variable {α : Type} [DecidableEq α]

/-- Operations other than `clone` and `erase_first`. -/
def QOp.plain : QOp α → Bool
  | .cloneAssign .. | .eraseFirst .. => false
  | _ => true

theorem qFine_of_plain (triv : Bool) : ∀ (ops : List (QOp α)) (s : Vars α),
    (∀ op ∈ ops, QOp.plain op = true) → qFine triv s ops := by
  intro ops
  induction ops with
  | nil => intro s _; trivial
  | cons op ops ih =>
    intro s h
    have h1 := h op (by simp)
    refine ⟨by cases op <;> first | trivial | simp [QOp.plain] at h1, ?_⟩
    split
    · trivial
    · exact ih _ (fun op' hm => h op' (by simp [hm]))

/-- What a run of the model has to do with a run of the specification: same outputs, or an assertion
exactly when a precondition is violated. -/
def QAgrees (T : Traits) (lim : Nat) (ops : List (QOp α)) : Prop :=
  match qRun (fun _ => []) ops with
  | some (outs, _) => ∃ w, QWorld.run T (QWorld.init lim) ops = .ok (outs, w)
  | none => QWorld.run T (QWorld.init lim) ops = .error .die

theorem QAgrees_of_fine (T : Traits) (ops : List (QOp α)) (lim : Nat)
    (hlim : 2 * qDemand ops + 8 ≤ lim) (hM : lim ≤ 2 ^ 63) (hF : qFine T.triv (fun _ => []) ops) :
    QAgrees T lim ops := by
  have := QWorld.run_spec (T := T) (L := lim) ops _ _ 0 (QWorld.init_inv T lim) (by omega) hM hF
  unfold QAgrees
  cases hr : qRun (fun _ => []) ops with
  | none => simpa only [hr] using this
  | some p =>
    obtain ⟨os, s⟩ := p
    simp only [hr] at this ⊢
    obtain ⟨w, e, _⟩ := this
    exact ⟨w, e⟩

/-- **C16.** Any program over queue variables (constructor with capacity, push, pop, clear, reserve,
indexing, assignment through an index, move assignment, front, back, penultimate, length, iteration)
sees exactly first-in first-out sequences, however the ring buffer wraps; `assert` fires exactly when
the specification's precondition is violated. -/
theorem C16_queue_is_fifo (T : Traits) (ops : List (QOp α)) (lim : Nat)
    (hlim : 2 * qDemand ops + 8 ≤ lim) (hM : lim ≤ 2 ^ 63)
    (hp : ∀ op ∈ ops, QOp.plain op = true) : QAgrees T lim ops :=
  QAgrees_of_fine T ops lim hlim hM (qFine_of_plain T.triv ops _ hp)

/-- **C17 (partial).** Ownership: after any program destroying the variables used leaves no block
allocated, and no element is leaked, destroyed twice or read after its destruction on the way (those
are the outcomes `leak` and `ub`). Full statement: for all programs. Proved: for all programs whose
`clone` and `erase_first` calls are fine, in particular all programs without them
(`qFine_of_plain`). The rest is false: `C18_clone_nontrivial_false`, `C19_erase_first_leaks`. -/
theorem C17_queue_owns_elements_once_partial (T : Traits) (ops : List (QOp α)) (lim : Nat)
    (hlim : 2 * qDemand ops + 8 ≤ lim) (hM : lim ≤ 2 ^ 63)
    (hF : qFine T.triv (fun _ => []) ops) :
    (∀ e, QWorld.run T (QWorld.init lim) ops = .error e → e = .die) ∧
    ∀ outs w, QWorld.run T (QWorld.init lim) ops = .ok (outs, w) →
    ∀ xs, (∀ op ∈ ops, ∀ x ∈ op.targets, x ∈ xs) →
    ∃ w', QWorld.finish T w xs = .ok w' ∧ ∀ b, w'.heap.blk b = none := by
  have hspec := QWorld.run_spec (T := T) (L := lim) ops _ _ 0 (QWorld.init_inv T lim) (by omega) hM hF
  cases hr : qRun (fun _ => []) ops with
  | none =>
    simp only [hr] at hspec
    refine ⟨fun e he => by rw [hspec] at he; injection he with he; exact he.symm, ?_⟩
    intro outs w hrun; rw [hspec] at hrun; cases hrun
  | some p =>
    obtain ⟨os, s⟩ := p
    simp only [hr] at hspec
    obtain ⟨w0, e0, I⟩ := hspec
    refine ⟨fun e he => by rw [e0] at he; exact absurd he (by simp), ?_⟩
    intro outs w hrun xs hxs
    rw [hrun] at e0
    injection e0 with e0; injection e0 with _ e0; subst e0
    obtain ⟨w', s', e, I', h1, h2⟩ := QWorld.finish_spec xs w s _ I
    refine ⟨w', e, ?_⟩
    have hall : ∀ x, w'.vars x = Queue.nil := by
      intro x
      by_cases hx : x ∈ xs
      · exact h1 x hx
      · apply h2
        rw [QWorld.run_vars ops _ _ _ hrun x (fun op hop hm => hx (hxs op hop x hm))]
        rfl
    intro b
    cases hb : w'.heap.blk b with
    | none => rfl
    | some c =>
      obtain ⟨x, hx⟩ := I'.winv.owned b (by rw [hb]; simp)
      rw [hall x] at hx; simp [Queue.nil] at hx

/-- **C18 (partial).** Full statement: for every element type, `y = x.clone()` gives `y` the same
sequence as `x`, independent of `x` afterwards: every program that also clones agrees with the
specification. Proved: for plain data. Missing because false: element types with a clone or copy
constructor, see `C18_clone_nontrivial_false`. -/
theorem C18_queue_clone_partial (T : Traits) (ht : T.triv = true) (ops : List (QOp α)) (lim : Nat)
    (hlim : 2 * qDemand ops + 8 ≤ lim) (hM : lim ≤ 2 ^ 63)
    (hp : ∀ op ∈ ops, QOp.plain op = true ∨ ∃ x y, op = .cloneAssign x y) : QAgrees T lim ops := by
  refine QAgrees_of_fine T ops lim hlim hM ?_
  suffices h : ∀ (ops : List (QOp α)) (s : Vars α),
      (∀ op ∈ ops, QOp.plain op = true ∨ ∃ x y, op = .cloneAssign x y) → qFine T.triv s ops from
    h ops _ hp
  intro ops
  induction ops with
  | nil => intro s _; trivial
  | cons op ops ih =>
    intro s h
    refine ⟨?_, ?_⟩
    · rcases h op (by simp) with h1 | ⟨x, y, rfl⟩
      · cases op <;> first | trivial | simp [QOp.plain] at h1
      · exact ht
    · split
      · trivial
      · exact ih _ (fun op' hm => h op' (by simp [hm]))

/-- **C18, refuted** for elements that need cloning: a queue of two elements loses the second one, and
reading the clone is undefined behaviour (`end_idx` is the last element, not one past it,
`rpp/queue.h:80-84`). -/
theorem C18_clone_nontrivial_false :
    ∃ ops : List (QOp Nat), qRun (fun _ => []) ops ≠ none ∧
      QWorld.run ⟨false⟩ (QWorld.init 1000) ops = .error .ub ∧ ¬ QAgrees ⟨false⟩ 1000 ops := by
  let ops : List (QOp Nat) := [.push 0 1, .push 0 2, .cloneAssign 1 0, .elems 1]
  have h1 : (qRun (fun _ => []) ops).map (·.1) =
    some [.unit, .unit, .unit, .list [1, 2]] := by decide
  have h2 : (QWorld.run ⟨false⟩ (QWorld.init 1000) ops).map (·.1) = .error .ub := by decide +kernel
  have h3 : QWorld.run ⟨false⟩ (QWorld.init 1000) ops = .error .ub := by
    cases h : QWorld.run ⟨false⟩ (QWorld.init 1000) ops with
    | ok p => rw [h] at h2; cases h2
    | error e => rw [h] at h2; injection h2 with h2; rw [h2]
  refine ⟨ops, ?_, h3, ?_⟩
  · intro e; rw [e] at h1; cases h1
  · intro hA
    unfold QAgrees at hA
    cases hr : qRun (fun _ => []) ops with
    | none => rw [hr] at h1; cases h1
    | some p =>
      simp only [hr] at hA
      obtain ⟨w, hw⟩ := hA
      rw [h3] at hw; cases hw

/-- **C18, refuted**, second case: cloning an empty queue that has a buffer clones elements that do
not exist. -/
theorem C18_clone_empty_false :
    (QWorld.run ⟨false⟩ (QWorld.init 1000)
      [QOp.fresh 0 4, .cloneAssign 1 0]).map (·.1) = (.error .ub : Res (List (Out Nat))) := by
  decide +kernel

/-- **C18, owning elements**: after any program with fine calls, and whatever its elements and the state of its ring, the clone
of a queue that is not empty lacks its last element. Destroying the clone, reading all its elements or the last one is
undefined. -/
theorem C18_clone_torn_all (T : Traits) (ht : T.triv = false) (ops : List (QOp α)) (lim : Nat)
    (hlim : 2 * qDemand ops + 8 ≤ lim) (hM : lim ≤ 2 ^ 63) (hF : qFine T.triv (fun _ => []) ops)
    {os : List (Out α)} {s : Vars α} (hs : qRun (fun _ => []) ops = some (os, s)) (x y : Nat) (hy : s y ≠ []) :
    ∃ w w', QWorld.run T (QWorld.init lim) ops = .ok (os, w) ∧ QWorld.run T w [.cloneAssign x y] = .ok ([.unit], w') ∧
      QWorld.run T w' [.scopeEnd x] = .error .ub ∧ QWorld.run T w' [.elems x] = .error .ub ∧
      QWorld.run T w' [.back x] = .error .ub := by
  have hspec := QWorld.run_spec (T := T) (L := lim) ops _ _ 0 (QWorld.init_inv T lim) (by omega) hM hF
  simp only [hs] at hspec
  obtain ⟨w, e0, I⟩ := hspec
  have hb := I.bound y
  have hlim' := I.lim
  obtain ⟨q', h1, e1, rfl, c, rfl, t⟩ :=
    wp_elim (Queue.wp_clone_torn (O := False) ht (I.winv.rep y) hy (by omega)) id
  obtain ⟨_, _, _, _, ok, _, _⟩ := (I.winv.rep y).buf hy
  generalize hh1 : (afterAlloc (w.vars y).cap w.heap).put w.heap.next (some c) = h1 at e1
  have hn1 : h1.next = w.heap.next + 1 := by rw [← hh1]; rfl
  have hblk : ∀ j, j ≠ w.heap.next → h1.blk j = w.heap.blk j := fun j hj => by
    rw [← hh1, put_blk_ne _ _ hj, afterAlloc_blk, if_neg hj]
  have hnew : h1.blk w.heap.next = some c := by rw [← hh1]; exact put_blk_self _ _ _
  have rx : Queue.Rep T h1 (w.vars x) (s x) :=
    (I.winv.rep x).congr (by omega) (fun j hj => hblk j (by have := (I.winv.rep x).lt j hj; omega))
  have hwf1 : h1.WF := by
    intro j hj
    rw [hblk j (by omega)]
    exact I.winv.wf j (by omega)
  obtain ⟨v2, h2, e2, rfl, fr2⟩ := wp_elim (Queue.wp_dtor (O := False) hwf1 rx) id
  have hnew2 : h2.blk w.heap.next = some c := by
    rw [fr2.other _ (fun e => by have := (I.winv.rep x).lt _ e; omega) (by simp), hnew]
  have e3 : Queue.dtor T Queue.nil h2 = .ok (Queue.nil, h2) := by
    simp [Queue.dtor, Queue.clear, Queue.nil, forLoop, ht]; rfl
  have ok' : Queue.Ok { w.vars y with data := some w.heap.next } := ⟨ok.cap0, ok.capM, ok.last, ok.len⟩
  have t' : Queue.Torn { w.vars y with data := some w.heap.next } c (s y) := ⟨t.size, t.elem, t.last⟩
  have hlen : ({ w.vars y with data := some w.heap.next } : Queue).len = (s y).length := (I.winv.rep y).1
  refine ⟨w, ⟨upd w.vars x { w.vars y with data := some w.heap.next }, h2⟩, e0, ?_, ?_, ?_, ?_⟩
  · simp only [QWorld.run, QWorld.step, QWorld.assignTemp, bind, Except.bind, e1, e2, e3]
    rfl
  · have := Queue.dtor_torn ht hy hlen ok' rfl hnew2 t'
    simp only [QWorld.run, QWorld.step, QWorld.on, bind, Except.bind, upd, if_true, this]
  · have := Queue.iterate_torn hlen ok' rfl hnew2 t' ((s y).length - 1) 0 (by have := List.length_pos_iff.mpr hy; omega)
    rw [show (s y).length - 1 + 1 = ({ w.vars y with data := some w.heap.next } : Queue).len by
      have := List.length_pos_iff.mpr hy; omega] at this
    simp only [QWorld.run, QWorld.step, QWorld.query, bind, StateT.bind, Except.bind, upd, if_true, this]
  · have := Queue.back_torn hy hlen ok' rfl hnew2 t'
    simp only [QWorld.run, QWorld.step, QWorld.query, bind, StateT.bind, Except.bind, upd, if_true, this]

/-- **C18, owning elements**: cloning an empty queue with room for more than one element is undefined, after any program with
fine calls. -/
theorem C18_clone_empty_all (T : Traits) (ht : T.triv = false) (ops : List (QOp α)) (lim : Nat)
    (hlim : 2 * qDemand ops + 8 ≤ lim) (hM : lim ≤ 2 ^ 63) (hF : qFine T.triv (fun _ => []) ops)
    {os : List (Out α)} {s : Vars α} (hs : qRun (fun _ => []) ops = some (os, s)) (x y : Nat) (hy : s y = []) :
    ∃ w, QWorld.run T (QWorld.init lim) ops = .ok (os, w) ∧
      (1 < (w.vars y).cap → QWorld.run T w [.cloneAssign x y] = .error .ub) := by
  have hspec := QWorld.run_spec (T := T) (L := lim) ops _ _ 0 (QWorld.init_inv T lim) (by omega) hM hF
  simp only [hs] at hspec
  obtain ⟨w, e0, I⟩ := hspec
  refine ⟨w, e0, fun hc => ?_⟩
  have hb := I.bound y
  have hlim' := I.lim
  have hr := I.winv.rep y
  rw [hy] at hr
  have := Queue.clone_empty ht hr hc (by omega)
  simp only [QWorld.run, QWorld.step, QWorld.assignTemp, bind, Except.bind, this]

/-- **C19 (partial).** Full statement: `erase_first(v)` removes the first element equal to `v`, keeps
all others in order and tells whether it found one. Proved: whenever `v` does not occur before the
last position of the queue at the time of the call (in particular when it does not occur at all), in
any program and any state of the ring. Missing because false: all other cases, see below. -/
theorem C19_erase_first_partial (T : Traits) (ops : List (QOp α)) (lim : Nat)
    (hlim : 2 * qDemand ops + 8 ≤ lim) (hM : lim ≤ 2 ^ 63) (hF : qFine T.triv (fun _ => []) ops) :
    QAgrees T lim ops := QAgrees_of_fine T ops lim hlim hM hF

/-- **C19, refuted** for plain data: erasing the second of four elements drops the last one instead
(`rpp/queue.h:246-263` copies each element onto its successor). -/
theorem C19_erase_first_false :
    let ops : List (QOp Nat) := [.push 0 1, .push 0 2, .push 0 3, .push 0 4, .eraseFirst 0 2, .elems 0]
    (qRun (fun _ => []) ops).map (·.1) =
        some [.unit, .unit, .unit, .unit, .num 1, .list [1, 3, 4]] ∧
    (QWorld.run ⟨true⟩ (QWorld.init 1000) ops).map (·.1) =
        .ok [.unit, .unit, .unit, .unit, .num 1, .list [1, 2, 3]] := by
  decide +kernel

/-- **C19, refuted** for owning elements: an element is constructed over a live one, which leaks. -/
theorem C19_erase_first_leaks :
    (QWorld.run ⟨false⟩ (QWorld.init 1000)
      [QOp.push 0 1, .push 0 2, .push 0 3, .push 0 4, .eraseFirst 0 1]).map (·.1) =
        (.error .leak : Res (List (Out Nat))) := by
  decide +kernel

/-- **C19, the exact result for plain data** after any program with fine calls: if the value is first found at position
`k` of `n` elements, `k` not being the last, then true is returned and the queue holds its first `k + 1` elements, the value
included, followed by `n - 2 - k` copies of element `k + 1`; if the ring was full its first element is overwritten by
element `k + 1` as well. So the value is still there unless `k = 0` and the ring was full. -/
theorem C19_erase_first_exact (T : Traits) (ht : T.triv = true) (ops : List (QOp α)) (lim : Nat)
    (hlim : 2 * qDemand ops + 8 ≤ lim) (hM : lim ≤ 2 ^ 63) (hF : qFine T.triv (fun _ => []) ops)
    {os : List (Out α)} {s : Vars α} (hs : qRun (fun _ => []) ops = some (os, s)) {x k : Nat} {a v : α}
    (hk : (s x)[k]? = some a) (hv : (s x)[k + 1]? = some v) (hne : ∀ i, i < k → (s x)[i]? ≠ some a) :
    ∃ w w' l', QWorld.run T (QWorld.init lim) ops = .ok (os, w) ∧
      QWorld.run T w [.eraseFirst x a, .elems x] = .ok ([.num 1, .list l'], w') ∧
      l'.length = (s x).length - 1 ∧
      ∀ i, i < (s x).length - 1 → l'[i]? =
        if i = 0 ∧ (s x).length = (w.vars x).cap then some v else if i ≤ k then (s x)[i]? else some v := by
  have hspec := QWorld.run_spec (T := T) (L := lim) ops _ _ 0 (QWorld.init_inv T lim) (by omega) hM hF
  simp only [hs] at hspec
  obtain ⟨w, e0, I⟩ := hspec
  have hlen : k + 1 < (s x).length := (List.getElem?_eq_some_iff.1 hv).1
  obtain ⟨p, h, e, e1, r, _, _⟩ :=
    wp_elim (Queue.wp_eraseFirst_early (O := False) ht (I.winv.rep x) hlen hk hv hne) id
  obtain ⟨found, q⟩ := p
  simp only at e1 r
  subst e1
  have hit := wp_elim (Queue.wp_iterate (O := False) r q.len 0 (by have := r.1; omega)) id
  obtain ⟨b, h', e2, rfl, rfl⟩ := hit
  refine ⟨w, ⟨upd w.vars x q, h'⟩, Queue.spoiled (s x) k (w.vars x).cap v, e0, ?_, ?_, fun i hi => ?_⟩
  · simp only [QWorld.run, QWorld.step, QWorld.erase, QWorld.query, bind, Except.bind, StateT.bind]
    rw [e]
    simp [pure, Except.pure, StateT.pure, upd, e2]
  · simp [Queue.spoiled]
  · simp only [Queue.spoiled, List.getElem?_map, List.getElem?_range hi, Option.map_some]
    split
    · rfl
    · split
      · rw [List.getElem?_eq_getElem (by omega)]
        rfl
      · rfl

/-- **C19, owning elements**: after any program with fine calls, if two or more elements follow the first one that is
found, an element is constructed over a live one, which is never destroyed. -/
theorem C19_erase_first_leaks_all (T : Traits) (ht : T.triv = false) (ops : List (QOp α)) (lim : Nat)
    (hlim : 2 * qDemand ops + 8 ≤ lim) (hM : lim ≤ 2 ^ 63) (hF : qFine T.triv (fun _ => []) ops)
    {os : List (Out α)} {s : Vars α} (hs : qRun (fun _ => []) ops = some (os, s)) {x k : Nat} {a : α}
    (hk : (s x)[k]? = some a) (hl : k + 2 < (s x).length) (hne : ∀ i, i < k → (s x)[i]? ≠ some a) :
    ∃ w, QWorld.run T (QWorld.init lim) ops = .ok (os, w) ∧
      QWorld.run T w [.eraseFirst x a] = .error .leak := by
  have hspec := QWorld.run_spec (T := T) (L := lim) ops _ _ 0 (QWorld.init_inv T lim) (by omega) hM hF
  simp only [hs] at hspec
  obtain ⟨w, e0, I⟩ := hspec
  refine ⟨w, e0, ?_⟩
  simp only [QWorld.run, QWorld.step, QWorld.erase, bind, Except.bind]
  rw [Queue.eraseFirst_leaks ht (I.winv.rep x) hl hk hne]

/-! ### Concrete cases -/

-- C19: the ring of eight is full, erasing the third element
example : (QWorld.run ⟨true⟩ (QWorld.init 1000) ((List.range 8).map (QOp.push 0) ++ [.eraseFirst 0 2, .elems 0])).map
    (fun r => r.1.drop 8) = .ok [.num 1, .list [3, 1, 2, 3, 3, 3, 3]] := by decide +kernel

/-- Wraps around the ring of 8, grows while wrapped, moves and pushes its own element. -/
def demoQueue : List (QOp Nat) :=
  (List.range 8).map (fun i => QOp.push 0 (i + 1)) ++ [.pop 0, .pop 0, .pop 0] ++
  (List.range 5).map (fun i => QOp.push 0 (i + 9)) ++
  [.pushOwn 0 1, .moveAssign 1 0, .elems 0, .elems 1, .front 1, .back 1, .penultimate 1, .get 1 7,
   .set 1 0 77, .front 1, .clear 1, .length 1]

example : 2 * qDemand demoQueue + 8 ≤ 1000 ∧ (∀ op ∈ demoQueue, QOp.plain op = true) ∧
    ((qRun (fun _ => []) demoQueue).map (·.1)).map (·.drop 17) = some
      [.unit, .list [], .list [4, 5, 6, 7, 8, 9, 10, 11, 12, 13, 5], .val 4, .val 5, .val 13, .val 11,
        .unit, .val 77, .unit, .num 0] := by
  decide

example : ((QWorld.run ⟨false⟩ (QWorld.init 1000) demoQueue).map (·.1)).map (·.drop 17) = .ok
      [.unit, .list [], .list [4, 5, 6, 7, 8, 9, 10, 11, 12, 13, 5], .val 4, .val 5, .val 13, .val 11,
        .unit, .val 77, .unit, .num 0] := by
  decide +kernel

-- C18: a queue of one element, and an empty one that had some
example : (qRun (fun _ => []) ([.push 0 7] : List (QOp Nat))).map (·.1) = some [.unit] ∧
    (QWorld.run ⟨false⟩ (QWorld.init 1000) ([.push 0 7, .cloneAssign 1 0, .length 1] : List (QOp Nat))).map (·.1) =
      .ok [.unit, .unit, .num 1] ∧
    (QWorld.run ⟨false⟩ (QWorld.init 1000) ([.push 0 7, .cloneAssign 1 0, .scopeEnd 1] : List (QOp Nat))).map (·.1) =
      .error .ub ∧
    (QWorld.run ⟨false⟩ (QWorld.init 1000) ([.push 0 7, .pop 0] : List (QOp Nat))).map (fun r => (r.2.vars 0).cap) = .ok 8 := by
  decide +kernel

-- C18/C19: a fine program that clones and erases
example : qFine true (fun _ => []) ([.push 0 1, .push 0 2, .cloneAssign 1 0, .eraseFirst 1 2,
    .eraseFirst 0 7, .elems 1] : List (QOp Nat)) := by
  simp [qFine, QOp.fine, qStep, upd]

example : (qRun (fun _ => []) ([.push 0 1, .push 0 2, .cloneAssign 1 0, .eraseFirst 1 2,
    .eraseFirst 0 7, .elems 1] : List (QOp Nat))).map (·.1) =
    some [.unit, .unit, .unit, .num 1, .num 0, .list [1]] := by decide

end Rpp.Props
