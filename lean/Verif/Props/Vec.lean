import Verif.Proof.VecWorld
import Verif.Proof.Stack

/-!
# Properties of `Vec` and `Stack` (C12, C13, C14, C15)
-/

namespace Rpp.Props
open Rpp Rpp.Spec

variable {α : Type}

/-- **C12.** Any client program over any number of `Vec` variables produces exactly the outputs that
the list specification `vecRun` gives; if (and only if) the specification says a precondition is
violated, the implementation stops with an assertion. No other outcome is possible as long as malloc
can serve twice the total demand of the program. -/
theorem C12_vec_refines_list (T : Traits) (d : α) (ops : List (VecOp α)) (lim : Nat)
    (hlim : 2 * vecDemand ops + 8 ≤ lim) :
    match vecRun d (fun _ => []) ops with
    | some (outs, _) => ∃ w, VecWorld.run T d (VecWorld.init lim) ops = .ok (outs, w)
    | none => VecWorld.run T d (VecWorld.init lim) ops = .error .die := by
  have := VecWorld.run_spec (T := T) (d := d) (L := lim) ops _ _ 0 (VecWorld.init_inv T lim) (by omega)
  cases hr : vecRun d (fun _ => []) ops with
  | none => simpa only [hr] using this
  | some p =>
    obtain ⟨os, s⟩ := p
    simp only [hr] at this ⊢
    obtain ⟨w, e, _⟩ := this
    exact ⟨w, e⟩

/-- **C13.** Ownership. After any client program that runs to its end, destroying all variables it
used (each possibly several times, in any order) succeeds and leaves no block allocated. In the
memory model an element that is overwritten while live, or whose storage is released while live, is
the outcome `leak`, and reading, moving from or destroying dead storage, or freeing a block twice, is
`ub`; by C12 and this theorem none of these happen. -/
theorem C13_vec_owns_elements_once (T : Traits) (d : α) (ops : List (VecOp α)) (lim : Nat)
    (hlim : 2 * vecDemand ops + 8 ≤ lim) (outs : List (Out α)) (w : VecWorld α)
    (hrun : VecWorld.run T d (VecWorld.init lim) ops = .ok (outs, w))
    (xs : List Nat) (hxs : ∀ op ∈ ops, ∀ x ∈ op.targets, x ∈ xs) :
    ∃ w', VecWorld.finish T w xs = .ok w' ∧ ∀ b, w'.heap.blk b = none := by
  have := VecWorld.run_spec (T := T) (d := d) (L := lim) ops _ _ 0 (VecWorld.init_inv T lim) (by omega)
  cases hr : vecRun d (fun _ => []) ops with
  | none => simp only [hr] at this; rw [this] at hrun; cases hrun
  | some p =>
    obtain ⟨os, s⟩ := p
    simp only [hr] at this
    obtain ⟨w0, e0, I⟩ := this
    rw [hrun] at e0
    injection e0 with e0; injection e0 with _ e0; subst e0
    obtain ⟨w', s', e, I', h1, h2⟩ := VecWorld.finish_spec xs w s _ I
    refine ⟨w', e, ?_⟩
    have hall : ∀ x, w'.vars x = Vec.nil := by
      intro x
      by_cases hx : x ∈ xs
      · exact h1 x hx
      · apply h2
        rw [VecWorld.run_vars ops _ _ _ hrun x (fun op hop hm => hx (hxs op hop x hm))]
        rfl
    intro b
    cases hb : w'.heap.blk b with
    | none => rfl
    | some c =>
      obtain ⟨x, hx⟩ := I'.winv.owned b (by rw [hb]; simp)
      rw [hall x] at hx; simp [Vec.nil] at hx

/-- **C13**, running part: programs over elements that own something never leak, double-destroy or
read dead storage, whatever they do. -/
theorem C13_vec_no_memory_error (T : Traits) (d : α) (ops : List (VecOp α)) (lim : Nat)
    (hlim : 2 * vecDemand ops + 8 ≤ lim) (e : Err)
    (herr : VecWorld.run T d (VecWorld.init lim) ops = .error e) : e = .die := by
  have := C12_vec_refines_list T d ops lim hlim
  split at this
  · obtain ⟨w, h⟩ := this; rw [h] at herr; cases herr
  · rw [this] at herr; injection herr with h; exact h.symm

/-- **C14.** `v.push(v[i])` appends the old value of `v[i]`, whether or not the push reallocates:
from any vector contents `l` held in a state where the vector is or is not full. Stated on the level
of one call, for every heap and every representation of `l`. -/
theorem C14_push_own_element (T : Traits) (h : Heap α) (v : Vec) (l : List α) (i : Nat)
    (hw : h.WF) (hrep : Vec.Rep T h v l) (hi : i < l.length) (hm : max 8 (2 * v.cap) ≤ h.lim) :
    ∃ v' h', Vec.pushOwn T v i h = .ok (v', h') ∧ Vec.Rep T h' v' (l ++ [l[i]]) := by
  obtain ⟨v', h', e, r, _⟩ := wp_elim (Vec.wp_pushOwn (O := False) hw hrep hi (by omega)) id
  exact ⟨v', h', e, r⟩

/-- **C14**, contrast: `v.emplace(v[i])` reads through a dangling reference when the vector is full.
(The property is about `push`; this shows that the copy taken by `push(const T&)` is what makes it
true.) -/
theorem C14_emplace_own_element_is_ub :
    (do let (_, w) ← VecWorld.run ⟨false⟩ 0 (VecWorld.init 100)
          ((List.range 8).map (fun i => VecOp.push 0 i))
        let (v, _) ← Vec.emplaceOwn ⟨false⟩ (w.vars 0) 0 w.heap
        return v) = (.error .ub : Res Vec) := by decide +kernel

/-! ### Stack -/

/-- **C15.** Any program of pushes, pops, `top`, `length` and `clear` on a `Stack` sees exactly a
last-in first-out stack; popping or reading an empty stack stops the program. -/
theorem C15_stack_is_lifo (T : Traits) (ops : List (StackOp α)) (lim : Nat)
    (hlim : 2 * ops.length + 8 ≤ lim) :
    match stackRun [] ops with
    | some outs => ∃ h', stackImplRun T Vec.nil ops (Heap.empty lim) = .ok (outs, h')
    | none => stackImplRun T Vec.nil ops (Heap.empty lim) = .error .die := by
  have := stackImplRun_spec T ops Vec.nil [] (Heap.empty lim) 0 (fun _ _ => rfl) (Vec.Rep.nil T _)
    (by simp) (by simp [Vec.nil]) (by simpa [Heap.empty] using hlim)
  cases hr : stackRun [] ops <;> simpa [hr] using this

/-! ### Non-vacuity: concrete programs -/

/-- A program that grows past 8 elements, pushes its own element while full, clones, moves and pops.
The specification gives a proper result and the demand bound is met. -/
def demoProg : List (VecOp Nat) :=
  (List.range 8).map (fun i => VecOp.push 0 (i + 1)) ++
  [.pushOwn 0 3, .cloneAssign 1 0, .pop 0, .moveAssign 2 0, .resize 1 11, .set 1 0 99,
   .elems 0, .elems 1, .elems 2, .back 2, .moveAssign 1 1, .length 1]

example : 2 * vecDemand demoProg + 8 ≤ 1000 := by decide

example : (vecRun 0 (fun _ => []) demoProg).map (·.1) = some (List.replicate 14 .unit ++
    [.list [], .list [99, 2, 3, 4, 5, 6, 7, 8, 4, 0, 0], .list [1, 2, 3, 4, 5, 6, 7, 8],
     .val 8, .unit, .num 0]) := by decide

-- the implementation model computes the same
example : (VecWorld.run ⟨false⟩ 0 (VecWorld.init 1000) demoProg).map (·.1) =
    .ok (List.replicate 14 .unit ++
    [.list [], .list [99, 2, 3, 4, 5, 6, 7, 8, 4, 0, 0], .list [1, 2, 3, 4, 5, 6, 7, 8],
     .val 8, .unit, .num 0]) := by decide +kernel

-- both constructors that make elements
example : (VecWorld.run ⟨false⟩ 0 (VecWorld.init 100) [.make 0 3, .init 1 [4, 5], .push 0 7, .make 1 0, .elems 0, .elems 1,
    .init 0 [4, 5, 6], .push 0 9, .elems 0]).map (·.1) =
    .ok [.unit, .unit, .unit, .unit, .list [0, 0, 0, 7], .list [], .unit, .unit, .list [4, 5, 6, 9]] := by decide +kernel

-- a program whose precondition fails
example : vecRun 0 (fun _ => []) [VecOp.push 0 5, .get 0 1] = none := by rfl

-- C13: hypotheses met
example : (VecWorld.run ⟨false⟩ 0 (VecWorld.init 1000) demoProg).toBool = true ∧
    ∀ op ∈ demoProg, ∀ x ∈ op.targets, x ∈ [0, 1, 2] := by decide +kernel

-- C15
example : stackRun [] [StackOp.push 1, .push 2, .top, .pop, .top, .length] =
    some [Out.unit, .unit, .val 2, .unit, .val 1, .num 1] := by decide

-- C14: a full vector (8 of 8) representing a list, with room in memory for growth
example : ∃ (h : Heap Nat) (v : Vec), h.WF ∧ Vec.Rep ⟨false⟩ h v [1, 2, 3, 4, 5, 6, 7, 8] ∧
    v.len = v.cap ∧ max 8 (2 * v.cap) ≤ h.lim := by
  refine ⟨⟨1, 100, fun j => if j = 0 then some ([1, 2, 3, 4, 5, 6, 7, 8].map some) else none⟩,
    ⟨some 0, 8, 8⟩, ?_, ?_, rfl, by decide⟩
  · intro j hj; simp at hj; have : j ≠ 0 := by omega
    simp [this]
  · simp [Vec.Rep]

end Rpp.Props
