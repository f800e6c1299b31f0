import Verif.Proof.HeapCost

/-!
# C156: the cost of heap operations

Full statement: adding an element to a heap and removing the least one take a number of comparisons and swaps logarithmic in the number
of elements. `lt` is any function, not only an order.
-/

namespace Rpp.Props
open Rpp Rpp.Spec Rpp.PHeap

variable {α : Type}

/-- The functions that count do what those of the library do. -/
theorem C156_same (T : Traits) (lt : α → α → Bool) (v : Vec) :
    (∀ a, (do let r ← pushC T lt v a; pure r.1) = push T lt v a) ∧ (do let r ← popC T lt v; pure r.1) = pop T lt v := by
  constructor
  · intro a
    unfold pushC push
    simp only [bind_assoc, ← up_same]
    congr 1
  · unfold popC pop
    simp only [bind_assoc, ← down_same]
    congr 1; funext _; congr 1; funext _
    split <;> simp

/-- **C156.** `push`: at most log2 of the new length comparisons, and as many swaps. -/
theorem C156_push {T : Traits} {lt : α → α → Bool} {v v' : Vec} {a : α} {c : Cost} {h h' : Heap α}
    (e : pushC T lt v a h = .ok ((v', c), h')) :
    v'.len = v.len + 1 ∧ c.compares ≤ (v.len + 1).log2 ∧ c.swaps ≤ (v.len + 1).log2 := by
  unfold pushC at e
  obtain ⟨w, h1, e1, e⟩ := Growth.bind_ok e
  obtain ⟨_, h2, e2, e⟩ := Growth.bind_ok e
  obtain ⟨d, h3, e3, e⟩ := Growth.bind_ok e
  cases e
  have hw : w.len = v.len := by
    split at e1
    · exact (Growth.heap_reserve_ok e1).1
    · cases e1; rfl
  dsimp only at e3 ⊢
  rw [Nat.add_sub_cancel, hw] at e3
  exact ⟨by rw [hw], up_cost T lt _ _ _ _ _ _ _ Nat.lt_log2_self e3⟩

/-- **C156.** `pop`: at most four times log2 of the remaining length comparisons, and at most log2 of it swaps. -/
theorem C156_pop {T : Traits} {lt : α → α → Bool} {v v' : Vec} {c : Cost} {h h' : Heap α}
    (e : popC T lt v h = .ok ((v', c), h')) :
    v'.len = v.len - 1 ∧ c.compares ≤ 4 * (v.len - 1).log2 ∧ c.swaps ≤ (v.len - 1).log2 := by
  unfold popC at e
  obtain ⟨_, h1, e1, e⟩ := Growth.bind_ok e
  obtain ⟨_, h2, e2, e⟩ := Growth.bind_ok e
  obtain ⟨d, h3, e3, e⟩ := Growth.bind_ok e
  cases e
  refine ⟨rfl, ?_⟩
  dsimp only at e3
  split at e3
  · obtain ⟨_, h4, e4, e3⟩ := Growth.bind_ok e3
    obtain ⟨_, h5, e5, e3⟩ := Growth.bind_ok e3
    refine down_cost T lt _ _ 0 _ _ _ _ ?_ e3
    dsimp only
    rw [Nat.zero_add, Nat.one_mul]
    exact Nat.lt_log2_self
  · cases e3
    simp

/-- **C156**, from below: every swap of `push` belongs to a comparison, and at most one comparison has no swap. The bound is met in
every length: if each comparison comes out true, there are log2 of the new length comparisons and swaps; if none does, one comparison
and no swap, or none at all in an empty heap. -/
theorem C156_push_exact {T : Traits} {v v' : Vec} {a : α} {c : Cost} {h h' : Heap α} :
    (∀ lt : α → α → Bool, pushC T lt v a h = .ok ((v', c), h') → c.swaps ≤ c.compares ∧ c.compares ≤ c.swaps + 1) ∧
    (pushC T (fun _ _ => true) v a h = .ok ((v', c), h') → c.compares = (v.len + 1).log2 ∧ c.swaps = (v.len + 1).log2) ∧
    (pushC T (fun _ _ => false) v a h = .ok ((v', c), h') → c.compares = (if v.len = 0 then 0 else 1) ∧ c.swaps = 0) := by
  have start : ∀ {lt : α → α → Bool}, pushC T lt v a h = .ok ((v', c), h') →
      ∃ (w : Vec) (h3 : Heap α) (h4 : Heap α), reheapUpC T lt w (v.len + 2) v.len h3 = .ok (c, h4) := by
    intro lt e
    unfold pushC at e
    obtain ⟨w, h1, e1, e⟩ := Growth.bind_ok e
    obtain ⟨_, h2, e2, e⟩ := Growth.bind_ok e
    obtain ⟨d, h3, e3, e⟩ := Growth.bind_ok e
    cases e
    have hw : w.len = v.len := by
      split at e1
      · exact (Growth.heap_reserve_ok e1).1
      · cases e1; rfl
    dsimp only at e3
    rw [Nat.add_sub_cancel, hw] at e3
    exact ⟨_, _, _, e3⟩
  refine ⟨fun lt e => ?_, fun e => ?_, fun e => ?_⟩
  · obtain ⟨w, h3, h4, e⟩ := start e
    exact up_between T lt _ _ _ _ _ _ e
  · obtain ⟨-, u1, u2⟩ := C156_push e
    obtain ⟨w, h3, h4, e⟩ := start e
    have := up_least T _ _ _ (v.len + 1).log2 _ _ _ (Nat.log2_self_le (by omega)) e
    omega
  · obtain ⟨w, h3, h4, e⟩ := start e
    unfold reheapUpC at e
    split at e
    · rename_i h0
      cases e
      rw [if_pos h0]; exact ⟨rfl, rfl⟩
    · rename_i h0
      obtain ⟨x, h1, e1, e⟩ := Growth.bind_ok e
      obtain ⟨y, h2, e2, e⟩ := Growth.bind_ok e
      rw [if_neg (by simp)] at e
      cases e
      rw [if_neg h0]; exact ⟨rfl, rfl⟩

/-- **C156**, from below: `pop` makes two comparisons for every swap but the last one, and at most four for every swap and four more.
If no comparison comes out true, there are as many comparisons as the first element has children. -/
theorem C156_pop_exact {T : Traits} {v v' : Vec} {c : Cost} {h h' : Heap α} :
    (∀ lt : α → α → Bool, popC T lt v h = .ok ((v', c), h') → 2 * c.swaps ≤ c.compares + 1 ∧ c.compares ≤ 4 * c.swaps + 4) ∧
    (popC T (fun _ _ => false) v h = .ok ((v', c), h') → c.compares = min 2 (v.len - 2) ∧ c.swaps = 0) := by
  have start : ∀ {lt : α → α → Bool}, popC T lt v h = .ok ((v', c), h') →
      (v.len - 1 = 0 ∧ c = ⟨0, 0⟩) ∨ ∃ (h3 : Heap α) (h4 : Heap α),
        reheapDownC T lt { v with len := v.len - 1 } (v.len - 1 + 1) 0 h3 = .ok (c, h4) := by
    intro lt e
    unfold popC at e
    obtain ⟨_, h1, e1, e⟩ := Growth.bind_ok e
    obtain ⟨_, h2, e2, e⟩ := Growth.bind_ok e
    obtain ⟨d, h3, e3, e⟩ := Growth.bind_ok e
    cases e
    dsimp only at e3
    split at e3
    · obtain ⟨_, h4, e4, e3⟩ := Growth.bind_ok e3
      obtain ⟨_, h5, e5, e3⟩ := Growth.bind_ok e3
      exact .inr ⟨_, _, e3⟩
    · cases e3
      exact .inl ⟨by omega, rfl⟩
  refine ⟨fun lt e => ?_, fun e => ?_⟩
  · rcases start e with ⟨-, rfl⟩ | ⟨h3, h4, e⟩
    · simp
    · exact down_between T lt _ _ _ _ _ _ e
  · rcases start e with ⟨h0, rfl⟩ | ⟨h3, h4, e⟩
    · simp; omega
    · unfold reheapDownC at e
      dsimp only at e
      split at e
      · obtain ⟨_, h1, e1, e⟩ := Growth.bind_ok e
        obtain ⟨_, h2, e2, e⟩ := Growth.bind_ok e
        obtain ⟨_, h2', e2', e⟩ := Growth.bind_ok e
        simp only [Bool.false_and, Bool.false_eq_true, if_false] at e
        cases e
        refine ⟨?_, rfl⟩
        dsimp only
        omega
      · split at e
        · obtain ⟨_, h1, e1, e⟩ := Growth.bind_ok e
          obtain ⟨_, h2, e2, e⟩ := Growth.bind_ok e
          rw [if_neg (by simp)] at e
          cases e
          refine ⟨?_, rfl⟩
          dsimp only
          omega
        · cases e
          refine ⟨?_, rfl⟩
          dsimp only
          omega

/-- **C156.** Whole programs of pushes and pops: `n` is the length at the beginning and all pushes together, which bounds every length
on the way. -/
theorem C156_programs {T : Traits} {lt : α → α → Bool} : ∀ (ops : List (Option α)) {v v' : Vec} {c c' : Cost} {h h' : Heap α} {n : Nat},
    v.len + ops.countP Option.isSome ≤ n → runC T lt v c ops h = .ok ((v', c'), h') →
    c'.compares ≤ c.compares + (ops.countP Option.isSome + 4 * ops.countP Option.isNone) * n.log2 ∧
    c'.swaps ≤ c.swaps + ops.length * n.log2
  | [], v, v', c, c', h, h', n, _, e => by cases e; simp
  | some a :: ops, v, v', c, c', h, h', n, hn, e => by
    unfold runC at e
    obtain ⟨⟨w, d⟩, h1, e1, e⟩ := Growth.bind_ok e
    obtain ⟨hl, hc, hs⟩ := C156_push e1
    simp only [List.countP_cons, Option.isSome_some, Option.isNone_some, if_true, Bool.false_eq_true, if_false, Nat.add_zero,
      List.length_cons] at hn ⊢
    have ih := C156_programs ops (n := n) (by dsimp only; omega) e
    have hlog : (v.len + 1).log2 ≤ n.log2 := log2_mono (by omega)
    unfold Cost.more at ih
    dsimp only at ih
    rw [show ops.countP Option.isSome + 1 + 4 * ops.countP Option.isNone = (ops.countP Option.isSome + 4 * ops.countP Option.isNone) + 1 by omega]
    generalize ops.countP Option.isSome + 4 * ops.countP Option.isNone = x at ih ⊢
    rw [Nat.add_mul x 1, Nat.add_mul ops.length 1]
    omega
  | none :: ops, v, v', c, c', h, h', n, hn, e => by
    unfold runC at e
    obtain ⟨⟨w, d⟩, h1, e1, e⟩ := Growth.bind_ok e
    obtain ⟨hl, hc, hs⟩ := C156_pop e1
    simp only [List.countP_cons, Option.isSome_none, Option.isNone_none, if_true, Bool.false_eq_true, if_false, Nat.add_zero,
      List.length_cons] at hn ⊢
    have ih := C156_programs ops (n := n) (by dsimp only; omega) e
    have hlog : (v.len - 1).log2 ≤ n.log2 := log2_mono (by omega)
    unfold Cost.more at ih
    dsimp only at ih
    rw [show ops.countP Option.isSome + 4 * (ops.countP Option.isNone + 1) = (ops.countP Option.isSome + 4 * ops.countP Option.isNone) + 4 by omega]
    generalize ops.countP Option.isSome + 4 * ops.countP Option.isNone = x at ih ⊢
    rw [Nat.add_mul x 4, Nat.add_mul ops.length 1]
    omega

/-- **C156.** Sorting `n` elements with a heap takes at most `5 n log2 n` comparisons. -/
theorem C156_sort {T : Traits} {lt : α → α → Bool} (l : List α) {v' : Vec} {c : Cost} {h h' : Heap α}
    (e : runC T lt Vec.nil ⟨0, 0⟩ (l.map some ++ List.replicate l.length none) h = .ok ((v', c), h')) :
    c.compares ≤ 5 * l.length * l.length.log2 ∧ c.swaps ≤ 2 * l.length * l.length.log2 := by
  have h1 : (l.map some ++ List.replicate l.length (none : Option α)).countP Option.isSome = l.length := by
    rw [List.countP_append, List.countP_map, List.countP_replicate]
    simp
  have h2 : (l.map some ++ List.replicate l.length (none : Option α)).countP Option.isNone = l.length := by
    rw [List.countP_append, List.countP_map, List.countP_replicate]
    simp
  obtain ⟨a, b⟩ := C156_programs _ (n := l.length) (by rw [h1]; simp [Vec.nil]) e
  rw [h1, h2] at a
  simp only [List.length_append, List.length_map, List.length_replicate] at b
  rw [show l.length + 4 * l.length = 5 * l.length by omega] at a
  rw [show l.length + l.length = 2 * l.length by omega] at b
  dsimp only at a b
  omega

-- adding ever smaller numbers to a heap of seven: the bound of `push` is met
example : (runC ⟨true⟩ (fun a b : Nat => decide (a < b)) Vec.nil ⟨0, 0⟩ ([8, 7, 6, 5, 4, 3, 2].map some) (Heap.empty 100) >>= fun r =>
    pushC ⟨true⟩ (fun a b : Nat => decide (a < b)) r.1.1 1 r.2).map (fun r => (r.1.1.len, r.1.2.compares, r.1.2.swaps)) = .ok (8, 3, 3) := by
  decide +kernel

-- sorting eight numbers
example : (runC ⟨true⟩ (fun a b : Nat => decide (a < b)) Vec.nil ⟨0, 0⟩
    ([3, 1, 4, 1, 5, 9, 2, 6].map some ++ List.replicate 8 none) (Heap.empty 100)).map
    (fun r => (r.1.1.len, r.1.2.compares, r.1.2.swaps)) = .ok (0, 31, 11) := by
  decide +kernel

end Rpp.Props
