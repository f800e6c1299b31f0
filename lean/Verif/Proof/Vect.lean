import Verif.Model.Vect
import Verif.Spec.Vect
import Mathlib.Algebra.BigOperators.Group.Finset.Basic
import Mathlib.Algebra.Ring.Basic
import Mathlib.Order.Lattice

/-! # Helper lemmas: vectors -/

namespace Rpp.Vect

open Rpp.Spec

variable {T : Type}

/-- An array loop that sets cell `i` to `g i (cell i)`. -/
theorem loop_upd {g : Nat → T → Res T} {init : Nat → T} : ∀ {n : Nat} {r : Nat → T},
    loop (fun i t => do return upd t i (← g i (t i))) n init = .ok r ↔
      (∀ i, i < n → g i (init i) = .ok (r i)) ∧ ∀ i, n ≤ i → r i = init i
  | 0, r => by
    simp only [loop]
    constructor
    · intro h; cases h; exact ⟨fun i hi => absurd hi (Nat.not_lt_zero i), fun _ _ => rfl⟩
    · intro h; congr 1; funext i; exact (h.2 i (Nat.zero_le i)).symm
  | n + 1, r => by
    simp only [loop]
    constructor
    · intro h
      cases hl : loop (fun i t => do return upd t i (← g i (t i))) n init with
      | error e => rw [hl] at h; simp [bind, Except.bind] at h
      | ok t =>
        rw [hl] at h
        obtain ⟨h1, h2⟩ := loop_upd.1 hl
        simp only [bind, Except.bind, pure, Except.pure] at h
        cases hg : g n (t n) with
        | error e => rw [hg] at h; simp at h
        | ok x =>
          rw [hg] at h
          simp only [Except.ok.injEq] at h
          subst h
          refine ⟨fun i hi => ?_, fun i hi => ?_⟩
          · by_cases e : i = n
            · subst e; rw [← h2 i (Nat.le_refl i), hg]; simp [upd]
            · rw [h1 i (by omega)]; simp [upd, e]
          · rw [← h2 i (by omega)]; simp [upd]; intro e; omega
    · intro ⟨h1, h2⟩
      have hl : loop (fun i t => do return upd t i (← g i (t i))) n init = .ok (fun i => if i < n then r i else init i) := by
        apply loop_upd.2
        refine ⟨fun i hi => ?_, fun i hi => ?_⟩
        · simp only [hi, if_true]; exact h1 i (by omega)
        · simp [Nat.not_lt.2 hi]
      rw [hl]
      have hn : (fun i => if i < n then r i else init i) n = init n := by simp
      simp only [bind, Except.bind, pure, Except.pure, hn, h1 n (by omega)]
      congr 1
      funext i
      simp only [upd]
      split
      · rename_i e; rw [e]
      · split
        · rfl
        · rw [h2 i (by omega)]

theorem loop_set {g : Nat → Res T} {init : Nat → T} {n : Nat} {r : Nat → T} :
    loop (fun i t => do return upd t i (← g i)) n init = .ok r ↔ (∀ i, i < n → g i = .ok (r i)) ∧ ∀ i, n ≤ i → r i = init i :=
  loop_upd (g := fun i _ => g i)

theorem lanes2_ok {f : T → T → Res T} {a b r : Nat → T} :
    lanes2 f a b = .ok r ↔ (∀ i, i < 4 → f (a i) (b i) = .ok (r i)) ∧ ∀ i, 4 ≤ i → r i = a i := by
  constructor
  · intro h
    unfold lanes2 at h
    cases h0 : f (a 0) (b 0) <;> cases h1 : f (a 1) (b 1) <;> cases h2 : f (a 2) (b 2) <;> cases h3 : f (a 3) (b 3) <;>
      simp [h0, h1, h2, h3, bind, Except.bind, pure, Except.pure] at h
    subst h
    refine ⟨fun i hi => ?_, fun i hi => ?_⟩
    · match i, hi with
      | 0, _ => exact h0
      | 1, _ => exact h1
      | 2, _ => exact h2
      | 3, _ => exact h3
    · match i, hi with
      | i + 4, _ => rfl
  · intro ⟨h, h'⟩
    unfold lanes2
    simp only [h 0 (by omega), h 1 (by omega), h 2 (by omega), h 3 (by omega), bind, Except.bind, pure, Except.pure]
    congr 1
    funext i
    match i with
    | 0 => rfl
    | 1 => rfl
    | 2 => rfl
    | 3 => rfl
    | i + 4 => exact (h' (i + 4) (by omega)).symm

/-- From the shape of the results to the specification. -/
theorem componentwise {f : Nat → Res T} {n : Nat} {res : Res (Nat → T)} {init : Nat → T}
    (h : ∀ r, res = .ok r ↔ (∀ i, i < n → f i = .ok (r i)) ∧ ∀ i, n ≤ i → r i = init i) : Componentwise n f res := by
  refine ⟨fun r hr => ((h r).1 hr).1, fun hx => ?_⟩
  classical
  refine ⟨fun i => if hi : i < n then (hx i hi).choose else init i, (h _).2 ⟨fun i hi => ?_, fun i hi => ?_⟩⟩
  · simp only [hi, dif_pos]; exact (hx i hi).choose_spec
  · simp [Nat.not_lt.2 hi]

theorem cw_upd {g : Nat → T → Res T} {init : Nat → T} {n : Nat} :
    Componentwise n (fun i => g i (init i)) (loop (fun i t => do return upd t i (← g i (t i))) n init) :=
  componentwise fun _ => loop_upd

theorem cw_set {g : Nat → Res T} {init : Nat → T} {n : Nat} :
    Componentwise n g (loop (fun i t => do return upd t i (← g i)) n init) :=
  componentwise fun _ => loop_set

theorem cw_lanes {f : T → T → Res T} {a b : Nat → T} : Componentwise 4 (fun i => f (a i) (b i)) (lanes2 f a b) :=
  componentwise fun _ => lanes2_ok

/-- A loop whose steps cannot fail. -/
theorem loop_total {σ : Type} {f : Nat → σ → σ} : ∀ {n : Nat} {s : σ},
    ∃ t, loop (fun i x => .ok (f i x)) n s = .ok t
  | 0, s => ⟨s, rfl⟩
  | n + 1, s => by
    obtain ⟨t, h⟩ := loop_total (f := f) (n := n) (s := s)
    exact ⟨f n t, by simp [loop, h, bind, Except.bind]⟩

theorem eqLoop_iff {o : Ops T} {a b : Nat → T} : ∀ {k i : Nat},
    eqLoop o a b k i = true ↔ ∀ j, i ≤ j → j < i + k → o.eq (a j) (b j) = true
  | 0, i => by simp only [eqLoop, true_iff]; intro j h1 h2; omega
  | k + 1, i => by
    unfold eqLoop
    constructor
    · intro h j h1 h2
      split at h
      · cases h
      · rename_i he
        by_cases e : j = i
        · subst e; simpa using he
        · exact eqLoop_iff.1 h j (by omega) (by omega)
    · intro h
      rw [if_neg (by simp [h i (by omega) (by omega)])]
      exact eqLoop_iff.2 fun j h1 h2 => h j (by omega) (by omega)

theorem neLoop_eq {o : Ops T} {a b : Nat → T} : ∀ {k i : Nat}, neLoop o a b k i = !eqLoop o a b k i
  | 0, _ => rfl
  | k + 1, i => by
    unfold neLoop eqLoop
    split
    · rfl
    · exact neLoop_eq

theorem loop_sum {K : Type} [CommRing K] {x y : Nat → K} : ∀ {n : Nat},
    loop (fun i r => (.ok (r + x i * y i) : Res K)) n 0 = .ok (∑ i ∈ Finset.range n, x i * y i)
  | 0 => by simp [loop]
  | n + 1 => by simp [loop, loop_sum, Finset.sum_range_succ, bind, Except.bind]

theorem loop_min {K : Type} [LinearOrder K] {f : K → K → K} {le : K → K → Prop} (hrefl : ∀ a, le a a)
    (htrans : ∀ a b c, le a b → le b c → le a c)
    (hf : ∀ a b, le (f a b) a ∧ le (f a b) b ∧ (f a b = a ∨ f a b = b)) {x : Nat → K} : ∀ {n : Nat},
    ∃ m, loop (fun i r => (.ok (f r (x (i + 1))) : Res K)) n (x 0) = .ok m ∧ (∀ i, i ≤ n → le m (x i)) ∧ ∃ i, i ≤ n ∧ m = x i
  | 0 => ⟨x 0, rfl, fun i hi => by rw [Nat.le_zero.1 hi]; exact hrefl _, 0, Nat.le_refl 0, rfl⟩
  | n + 1 => by
    obtain ⟨m, h1, h2, i, h3, h4⟩ := loop_min hrefl htrans hf (x := x) (n := n)
    obtain ⟨e1, e2, e3⟩ := hf m (x (n + 1))
    refine ⟨f m (x (n + 1)), by simp [loop, h1, bind, Except.bind], fun j hj => ?_, ?_⟩
    · rcases Nat.lt_or_ge j (n + 1) with h | h
      · exact htrans _ _ _ e1 (h2 j (by omega))
      · rw [Nat.le_antisymm hj h]; exact e2
    · rcases e3 with e | e
      · exact ⟨i, by omega, by rw [e, h4]⟩
      · exact ⟨n + 1, Nat.le_refl _, e⟩

end Rpp.Vect
