import Verif.Model.HeapCost
import Verif.Proof.Growth

namespace Rpp.PHeap
open Rpp Rpp.Spec

variable {α : Type}

theorem up_same (T : Traits) (lt : α → α → Bool) (v : Vec) : ∀ (f i : Nat),
    (do let _ ← reheapUpC T lt v f i; pure ()) = reheapUp T lt v f i
  | 0, _ => rfl
  | f + 1, i => by
    unfold reheapUpC reheapUp
    split
    · simp
    · simp only [bind_assoc, ← up_same T lt v f]
      congr 1; funext a; congr 1; funext b
      split <;> simp

theorem down_same (T : Traits) (lt : α → α → Bool) (v : Vec) : ∀ (f i : Nat),
    (do let _ ← reheapDownC T lt v f i; pure ()) = reheapDown T lt v f i
  | 0, _ => rfl
  | f + 1, i => by
    unfold reheapDownC reheapDown
    dsimp only
    split
    · simp only [bind_assoc, ← down_same T lt v f]
      congr 1; funext a; congr 1; funext b; congr 1; funext c
      split
      · simp
      · split <;> simp
    · split
      · simp only [bind_assoc]
        congr 1; funext a; congr 1; funext b
        split <;> simp
      · simp

theorem up_cost (T : Traits) (lt : α → α → Bool) (v : Vec) : ∀ (f i k : Nat) (c : Cost) (h h' : Heap α),
    i + 1 < 2 ^ (k + 1) → reheapUpC T lt v f i h = .ok (c, h') → c.compares ≤ k ∧ c.swaps ≤ k
  | 0, _, _, _, _, _, _, e => by cases e
  | f + 1, i, k, c, h, h', hk, e => by
    unfold reheapUpC at e
    split at e
    · cases e; simp
    · rename_i hi
      obtain ⟨a, h1, e1, e⟩ := Growth.bind_ok e
      obtain ⟨b, h2, e2, e⟩ := Growth.bind_ok e
      cases k with
      | zero => omega
      | succ k =>
        split at e
        · obtain ⟨_, h3, e3, e⟩ := Growth.bind_ok e
          obtain ⟨d, h4, e4, e⟩ := Growth.bind_ok e
          cases e
          have := up_cost T lt v f ((i - 1) / 2) k d _ _ (by rw [Nat.pow_succ] at hk; omega) e4
          unfold Cost.more
          dsimp only
          omega
        · cases e
          dsimp only
          omega

theorem down_cost (T : Traits) (lt : α → α → Bool) (v : Vec) : ∀ (f i k : Nat) (c : Cost) (h h' : Heap α),
    v.len < (i + 1) * 2 ^ (k + 1) → reheapDownC T lt v f i h = .ok (c, h') → c.compares ≤ 4 * k ∧ c.swaps ≤ k
  | 0, _, _, _, _, _, _, e => by cases e
  | f + 1, i, k, c, h, h', hk, e => by
    have below : ∀ (j : Nat), 2 * (i + 1) ≤ j + 1 → ∀ k', k = k' + 1 → ∀ {d : Cost} {h3 h4 : Heap α},
        reheapDownC T lt v f j h3 = .ok (d, h4) → d.compares ≤ 4 * k' ∧ d.swaps ≤ k' := by
      intro j hj k' hk' d h3 h4 e4
      refine down_cost T lt v f j k' d h3 h4 (Nat.lt_of_lt_of_le hk ?_) e4
      rw [hk', Nat.pow_succ (n := 2) (m := k' + 1), Nat.mul_comm (2 ^ (k' + 1)) 2, ← Nat.mul_assoc]
      exact Nat.mul_le_mul_right _ (by omega)
    unfold reheapDownC at e
    dsimp only at e
    split at e
    · rename_i hr
      obtain ⟨k', rfl⟩ : ∃ k', k = k' + 1 := by
        cases k with
        | zero => omega
        | succ k' => exact ⟨k', rfl⟩
      obtain ⟨a, h1, e1, e⟩ := Growth.bind_ok e
      obtain ⟨b, h2, e2, e⟩ := Growth.bind_ok e
      obtain ⟨b', h2', e2', e⟩ := Growth.bind_ok e
      have f1 : (if lt b a then 2 else 1) ≤ 2 := by split <;> omega
      have f2 : (if lt b' a then 2 else 1) ≤ 2 := by split <;> omega
      split at e
      · obtain ⟨_, h3, e3, e⟩ := Growth.bind_ok e
        obtain ⟨d, h4, e4, e⟩ := Growth.bind_ok e
        cases e
        have := below _ (by omega) k' rfl e4
        unfold Cost.more
        dsimp only
        omega
      · split at e
        · obtain ⟨_, h3, e3, e⟩ := Growth.bind_ok e
          obtain ⟨d, h4, e4, e⟩ := Growth.bind_ok e
          cases e
          have := below _ (by omega) k' rfl e4
          unfold Cost.more
          dsimp only
          omega
        · cases e
          dsimp only
          omega
    · split at e
      · rename_i hl
        obtain ⟨k', rfl⟩ : ∃ k', k = k' + 1 := by
          cases k with
          | zero => omega
          | succ k' => exact ⟨k', rfl⟩
        obtain ⟨a, h1, e1, e⟩ := Growth.bind_ok e
        obtain ⟨b, h2, e2, e⟩ := Growth.bind_ok e
        split at e
        · obtain ⟨_, h3, e3, e⟩ := Growth.bind_ok e
          cases e
          dsimp only
          omega
        · cases e
          dsimp only
          omega
      · cases e
        dsimp only
        omega

theorem up_between (T : Traits) (lt : α → α → Bool) (v : Vec) : ∀ (f i : Nat) (c : Cost) (h h' : Heap α),
    reheapUpC T lt v f i h = .ok (c, h') → c.swaps ≤ c.compares ∧ c.compares ≤ c.swaps + 1
  | 0, _, _, _, _, e => by cases e
  | f + 1, i, c, h, h', e => by
    unfold reheapUpC at e
    split at e
    · cases e; simp
    · obtain ⟨a, h1, e1, e⟩ := Growth.bind_ok e
      obtain ⟨b, h2, e2, e⟩ := Growth.bind_ok e
      split at e
      · obtain ⟨_, h3, e3, e⟩ := Growth.bind_ok e
        obtain ⟨d, h4, e4, e⟩ := Growth.bind_ok e
        cases e
        have := up_between T lt v f _ d _ _ e4
        unfold Cost.more
        dsimp only
        omega
      · cases e
        dsimp only
        omega

theorem up_least (T : Traits) (v : Vec) : ∀ (f i k : Nat) (c : Cost) (h h' : Heap α),
    2 ^ k ≤ i + 1 → reheapUpC T (fun _ _ => true) v f i h = .ok (c, h') → k ≤ c.compares ∧ k ≤ c.swaps
  | 0, _, _, _, _, _, _, e => by cases e
  | f + 1, i, k, c, h, h', hk, e => by
    cases k with
    | zero => omega
    | succ k =>
      unfold reheapUpC at e
      have := Nat.pow_pos (n := k) (show 0 < 2 by omega)
      rw [Nat.pow_succ] at hk
      split at e
      · omega
      · obtain ⟨a, h1, e1, e⟩ := Growth.bind_ok e
        obtain ⟨b, h2, e2, e⟩ := Growth.bind_ok e
        rw [if_pos rfl] at e
        obtain ⟨_, h3, e3, e⟩ := Growth.bind_ok e
        obtain ⟨d, h4, e4, e⟩ := Growth.bind_ok e
        cases e
        have := up_least T v f ((i - 1) / 2) k d _ _ (by omega) e4
        unfold Cost.more
        dsimp only
        omega

theorem down_between (T : Traits) (lt : α → α → Bool) (v : Vec) : ∀ (f i : Nat) (c : Cost) (h h' : Heap α),
    reheapDownC T lt v f i h = .ok (c, h') → 2 * c.swaps ≤ c.compares + 1 ∧ c.compares ≤ 4 * c.swaps + 4
  | 0, _, _, _, _, e => by cases e
  | f + 1, i, c, h, h', e => by
    unfold reheapDownC at e
    dsimp only at e
    split at e
    · obtain ⟨a, h1, e1, e⟩ := Growth.bind_ok e
      obtain ⟨b, h2, e2, e⟩ := Growth.bind_ok e
      obtain ⟨b', h2', e2', e⟩ := Growth.bind_ok e
      have f1 : 1 ≤ (if lt b a then 2 else 1) ∧ (if lt b a then 2 else 1) ≤ 2 := by split <;> omega
      have f2 : 1 ≤ (if lt b' a then 2 else 1) ∧ (if lt b' a then 2 else 1) ≤ 2 := by split <;> omega
      split at e
      · rename_i hc
        rw [Bool.and_eq_true] at hc
        rw [if_pos hc.1] at e
        obtain ⟨_, h3, e3, e⟩ := Growth.bind_ok e
        obtain ⟨d, h4, e4, e⟩ := Growth.bind_ok e
        cases e
        have := down_between T lt v f _ d _ _ e4
        unfold Cost.more
        dsimp only
        omega
      · split at e
        · obtain ⟨_, h3, e3, e⟩ := Growth.bind_ok e
          obtain ⟨d, h4, e4, e⟩ := Growth.bind_ok e
          cases e
          have := down_between T lt v f _ d _ _ e4
          unfold Cost.more
          dsimp only
          omega
        · cases e
          dsimp only
          omega
    · split at e
      · obtain ⟨a, h1, e1, e⟩ := Growth.bind_ok e
        obtain ⟨b, h2, e2, e⟩ := Growth.bind_ok e
        split at e
        · obtain ⟨_, h3, e3, e⟩ := Growth.bind_ok e
          cases e
          dsimp only
          omega
        · cases e
          dsimp only
          omega
      · cases e
        dsimp only
        omega

theorem log2_mono {m n : Nat} (h : m ≤ n) : m.log2 ≤ n.log2 := by
  by_cases hm : m = 0
  · rw [hm, Nat.log2_zero]; omega
  · exact (Nat.le_log2 (by omega)).2 (Nat.le_trans (Nat.log2_self_le hm) h)

end Rpp.PHeap
