import Verif.Proof.HeapWorld

/-!
# Properties of programs over several heaps (C20, C74)

Elements are compared by an arbitrary strict weak order `lt`; `T.triv` distinguishes plain data from
owning elements. `lim` is what malloc can provide, `X` the variables of the program.
-/

namespace Rpp.Props
open Rpp Rpp.Spec

variable {α : Type}

/-- **C20** for programs over several heaps: every variable behaves like a bag whose `top` is a
smallest element, an operation changes only the variables it names, a moved-from heap is empty and
usable, and a clone holds the same bag. The sizes of all variables at the end are those of the bags. -/
theorem C20_programs {T : Traits} {lt : α → α → Bool} (hs : SWO lt) (ops : List (HWOp α))
    (lim : Nat) (hL : 2 * hwDemand ops + 8 ≤ lim) :
    ∃ e, HWTrace lt (fun _ => []) ops (HeapWorld.run T lt (VecWorld.init lim) ops).1 e ∧
      (e = .inl .popEmpty → (HeapWorld.run T lt (VecWorld.init lim) ops).2 = .error .die) ∧
      (∀ s, e = .inr s → ∃ w, (HeapWorld.run T lt (VecWorld.init lim) ops).2 = .ok w ∧
        ∀ x, (w.vars x).len = (s x).length) := by
  obtain ⟨e, t, en⟩ := HeapWorld.run_spec (T := T) hs (X := ops.flatMap HWOp.names) ops
    (VecWorld.init lim) (fun _ => []) 0 (HeapWorld.init_inv T lt _ lim)
    (fun op ho x hx => List.mem_flatMap.mpr ⟨op, ho, hx⟩) (by simpa using hL)
  refine ⟨e, t, ?_, ?_⟩
  · rintro rfl
    generalize (HeapWorld.run T lt (VecWorld.init lim) ops).2 = r at en
    cases en; rfl
  · rintro s rfl
    generalize (HeapWorld.run T lt (VecWorld.init lim) ops).2 = r at en
    cases en with
    | ok h1 h2 h3 => exact ⟨_, rfl, h1⟩

/-- **C74** for programs over several heaps: a program that calls no `top` on an empty heap never
commits a memory error and never runs out of memory below `lim`. It ends at the assert of `pop` on an
empty heap, or destroying its variables afterwards in any order releases every element and every
block. -/
theorem C74_programs {T : Traits} {lt : α → α → Bool} (hs : SWO lt) (ops : List (HWOp α))
    (lim : Nat) (hL : 2 * hwDemand ops + 8 ≤ lim) (X : List Nat)
    (hX : ∀ op ∈ ops, ∀ x ∈ op.names, x ∈ X) :
    ∃ e, HWTrace lt (fun _ => []) ops (HeapWorld.run T lt (VecWorld.init lim) ops).1 e ∧
      (e ≠ .inl .topEmpty →
        (e = .inl .popEmpty ∧ (HeapWorld.run T lt (VecWorld.init lim) ops).2 = .error .die) ∨
        ∃ w w', (HeapWorld.run T lt (VecWorld.init lim) ops).2 = .ok w ∧
          VecWorld.finish T w X = .ok w' ∧ ∀ j, w'.heap.blk j = none) := by
  obtain ⟨e, t, en⟩ := HeapWorld.run_spec (T := T) hs ops
    (VecWorld.init lim) (fun _ => []) 0 (HeapWorld.init_inv T lt X lim) hX (by simpa using hL)
  refine ⟨e, t, fun hne => ?_⟩
  generalize (HeapWorld.run T lt (VecWorld.init lim) ops).2 = r at en
  cases en with
  | popEmpty => exact Or.inl ⟨rfl, rfl⟩
  | topEmpty => exact absurd rfl hne
  | ok h1 h2 h3 => exact Or.inr ⟨_, _, rfl, h2, h3⟩

/-- The order of the examples. -/
theorem nat_swo : SWO (fun a b : Nat => decide (a < b)) :=
  ⟨by intro a b; simp; omega, by intro a b c; simp; omega⟩

/-- A program with owning elements: initialise, clone, move, take from both, assign to itself. -/
def heapsExample : List (HWOp Nat) :=
  [.init 0 [5, 3, 9, 1], .cloneAssign 1 0, .moveAssign 2 0, .length 0, .push 0 7, .take 2, .take 2,
    .take 1, .top 0, .moveAssign 1 1, .length 1, .cloneAssign 0 2, .take 0, .elems 2, .scopeEnd 2]

/-- The example meets the hypotheses and shows what the specification asks for. -/
example : 2 * hwDemand heapsExample + 8 ≤ 100 ∧
    (∀ op ∈ heapsExample, ∀ x ∈ op.names, x ∈ [0, 1, 2]) ∧
    (HeapWorld.run ⟨false⟩ (fun a b => decide (a < b)) (VecWorld.init 100) heapsExample).1 =
      [.unit, .unit, .unit, .num 0, .unit, .val 1, .val 3, .val 1, .val 7, .unit, .num 0, .unit,
        .val 5, .list [5, 9], .unit] := by decide +kernel

/-- `pop` of a moved-from heap stops at the assert. -/
example : (HeapWorld.run ⟨false⟩ (fun a b => decide (a < b)) (VecWorld.init 100)
    [HWOp.init 0 [5, 3], .moveAssign 1 0, .pop 1, .pop 0, .pop 1]).1 = [.unit, .unit, .unit] ∧
    ((HeapWorld.run ⟨false⟩ (fun a b => decide (a < b)) (VecWorld.init 100)
    [HWOp.init 0 [5, 3], .moveAssign 1 0, .pop 1, .pop 0, .pop 1]).2.map fun _ => ()) =
      .error .die := by decide +kernel

end Rpp.Props
