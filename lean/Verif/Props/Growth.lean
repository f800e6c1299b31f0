import Verif.Proof.Growth

/-!
# C154: the cost of growing

Full statement: adding elements to a container costs amortised constant time: `n` additions move at most `2 n` elements to new memory.
False of `Vec::extend` and `resize` (`C154_false`).
-/

namespace Rpp.Props
open Rpp.Growth Rpp.Spec

/-- **C154, partial.** Any program of `push`, `pop` and `clear` on a `Vec` (and so a `Stack`) that begins empty moves at most twice as many
elements as it adds, and for the `k`-th allocation of memory it must have added more than `2 ^ (k + 1)` elements. Missing: `extend` and
`resize`. -/
theorem C154_vec_partial {α : Type} (T : Traits) (h : Heap α) (es : List (Op α)) {tr : List (Vec × Heap α)}
    (ht : trace (vec T) (Vec.nil, h) es = .ok tr) :
    moved (fun s => s.1.len) (fun s => s.1.cap) tr ≤ 2 * es.countP Op.adds ∧
    (2 ≤ allocs (fun s => s.1.cap) tr → 2 ^ (allocs (fun s => s.1.cap) tr + 1) < es.countP Op.adds) := by
  obtain ⟨h1, h2⟩ := bounds (vec_rule T) (by omega) rfl (fun _ => rfl) (s := (Vec.nil, h)) trivial rfl rfl ht
  refine ⟨h1, fun hk => ?_⟩
  have := h2 hk
  generalize allocs _ tr = k at *
  obtain ⟨k, rfl⟩ : ∃ j, k = j + 2 := ⟨k - 2, by omega⟩
  simp only [id] at this
  rw [show k + 2 - 1 = k + 1 by omega, Nat.pow_succ] at this
  rw [Nat.pow_succ, Nat.pow_succ, Nat.pow_succ]
  omega

/-- The same for a `Queue`. -/
theorem C154_queue {α : Type} (T : Traits) (h : Heap α) (es : List (Op α)) {tr : List (Queue × Heap α)}
    (ht : trace (queue T) (Queue.nil, h) es = .ok tr) :
    moved (fun s => s.1.len) (fun s => s.1.cap) tr ≤ 2 * es.countP Op.adds ∧
    (2 ≤ allocs (fun s => s.1.cap) tr → 2 ^ (allocs (fun s => s.1.cap) tr + 1) < es.countP Op.adds) := by
  obtain ⟨h1, h2⟩ := bounds (queue_rule T) (by omega) rfl (fun _ => rfl) (s := (Queue.nil, h)) trivial rfl rfl ht
  refine ⟨h1, fun hk => ?_⟩
  have := h2 hk
  generalize allocs _ tr = k at *
  obtain ⟨k, rfl⟩ : ∃ j, k = j + 2 := ⟨k - 2, by omega⟩
  simp only [id] at this
  rw [show k + 2 - 1 = k + 1 by omega, Nat.pow_succ] at this
  rw [Nat.pow_succ, Nat.pow_succ, Nat.pow_succ]
  omega

/-- The same for a `Heap`, whatever the order. -/
theorem C154_heap {α : Type} (T : Traits) (lt : α → α → Bool) (h : Heap α) (es : List (HeapOp α)) {tr : List (Vec × Heap α)}
    (ht : trace (heap T lt) (Vec.nil, h) es = .ok tr) :
    moved (fun s => s.1.len) (fun s => s.1.cap) tr ≤ 2 * es.countP HeapOp.adds ∧
    (2 ≤ allocs (fun s => s.1.cap) tr → 2 ^ (allocs (fun s => s.1.cap) tr + 1) < es.countP HeapOp.adds) := by
  obtain ⟨h1, h2⟩ := bounds (heap_rule T lt) (by omega) rfl (fun _ => rfl) (s := (Vec.nil, h)) trivial rfl rfl ht
  refine ⟨h1, fun hk => ?_⟩
  have := h2 hk
  generalize allocs _ tr = k at *
  obtain ⟨k, rfl⟩ : ∃ j, k = j + 2 := ⟨k - 2, by omega⟩
  simp only [id] at this
  rw [show k + 2 - 1 = k + 1 by omega, Nat.pow_succ] at this
  rw [Nat.pow_succ, Nat.pow_succ, Nat.pow_succ]
  omega

/-- A `Map` moves at most twice as many entries as are inserted, whatever the hash function, and for the `k`-th allocation more than
`6 · 2 ^ k` must have been. -/
theorem C154_map {K V : Type} [DecidableEq K] (H : K → Nat) (lim : Nat) (es : List (MOp K V)) {tr : List (Map K V)}
    (ht : trace (map H lim) Map.nil es = .ok tr) :
    moved (·.len) (·.cap) tr ≤ 2 * es.countP MOp.adds ∧ (2 ≤ allocs (·.cap) tr → 6 * 2 ^ allocs (·.cap) tr < es.countP MOp.adds) := by
  obtain ⟨h1, h2⟩ := bounds (map_rule H lim) (by omega) rfl (fun j => by omega) (s := Map.nil) (by simp [Map.nil]) rfl rfl ht
  refine ⟨h1, fun hk => ?_⟩
  have := h2 hk
  generalize allocs _ tr = k at *
  obtain ⟨k, rfl⟩ : ∃ j, k = j + 2 := ⟨k - 2, by omega⟩
  rw [show k + 2 - 1 = k + 1 by omega, Nat.pow_succ] at this
  rw [Nat.pow_succ, Nat.pow_succ]
  omega

/-- **C154 is false of the code:** extending a `Vec` by one element `n` times allocates new memory each time and moves `n (n - 1) / 2`
elements. -/
theorem C154_false {α : Type} (T : Traits) (d : α) {lim n : Nat} (hn : n ≤ lim) :
    ∃ tr, trace (vecExtend T d) (Vec.nil, Heap.empty lim) (List.replicate n 1) = .ok tr ∧ allocs (fun s => s.1.cap) tr = n ∧
      2 * moved (fun s => s.1.len) (fun s => s.1.cap) tr = n * n - n := by
  obtain ⟨tr, h1, _, h2, h3⟩ := extend_trace T d n (h := Heap.empty lim) (fun _ _ => rfl) (Vec.Rep.nil T _) rfl
    (by simp only [Vec.nil, Heap.empty]; omega)
  refine ⟨tr, h1, h2, ?_⟩
  simp only [Vec.nil, Nat.zero_mul, Nat.mul_zero] at h3
  omega

/-- Twenty additions, with three taken away in between: 24 elements are moved, with three allocations. -/
example : (trace (vec ⟨false⟩) (Vec.nil, Heap.empty 100)
      ((List.range 10).map .push ++ [.pop, .pop, .pop] ++ (List.range 10).map .push)).map
      (fun tr => (tr.length, moved (fun s => s.1.len) (fun s => s.1.cap) tr, allocs (fun s => s.1.cap) tr)) = .ok (24, 24, 3) := by
  decide +kernel

/-- Forty insertions into a map. -/
example : (trace (map (fun k : Nat => k * 2 ^ 58 + 1) 1000) Map.nil ((List.range 40).map fun k => .insert k ())).map
      (fun tr => (moved (·.len) (·.cap) tr, allocs (·.cap) tr)) = .ok (24, 2) := by
  decide +kernel

end Rpp.Props
