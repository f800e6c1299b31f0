import Verif.Proof.Vect
import Mathlib.Tactic.Ring
import Mathlib.Algebra.BigOperators.Ring.Finset
import Mathlib.Algebra.Field.Basic
import Mathlib.Algebra.Field.Rat
import Mathlib.Algebra.Order.Ring.Rat

/-!
# C73, C86, C87: vectors of any element type and length
-/

namespace Rpp.Props

open Rpp.Vect Rpp.Spec

variable {T : Type}

/-! ## C73: operators

Full statement: every operator computes its component-wise operation in the order written, and only the assigning ones
change an operand. -/

/-- Right for `v op w`, `v op s` and the assigning operators, at every length, with and without SIMD. -/
theorem C73_ops (o : Ops T) (op : Op) {simd : Bool} {n : Nat} (hs : simd = true → n = 4) (v w : Nat → T) (s : T) :
    Componentwise n (fun i => o.app op (v i) (w i)) (binV o simd n op v w) ∧
    Componentwise n (fun i => o.app op (v i) s) (binS o simd n op v s) ∧
    Componentwise n (fun i => o.app op (v i) (w i)) (assignV o simd n op v w) ∧
    Componentwise n (fun i => o.app op (v i) s) (assignS o simd n op v s) := by
  cases simd with
  | true =>
    rw [hs rfl]
    exact ⟨cw_lanes, cw_lanes, cw_lanes, cw_lanes⟩
  | false =>
    exact ⟨cw_set, cw_set, cw_upd (g := fun i x => o.app op x (w i)), cw_upd (g := fun _ x => o.app op x s)⟩

/-- Right for `s op v` without SIMD, and for `s + v`, `s * v` always, if `+` and `*` commute. `_partial`: `s - v` and
`s / v` with SIMD, see `C73_swapped` and `C73_false`. -/
theorem C73_left_partial (o : Ops T) (op : Op) {simd : Bool} {n : Nat} (hs : simd = true → n = 4) (v : Nat → T) (s : T)
    (ha : ∀ a b, o.add a b = o.add b a) (hm : ∀ a b, o.mul a b = o.mul b a)
    (hop : simd = false ∨ op = .add ∨ op = .mul) :
    Componentwise n (fun i => o.app op s (v i)) (binL o simd n op s v) := by
  have hc : ∀ f : T → T → Res T, (∀ a b, f a b = f b a) → Componentwise n (fun i => f s (v i))
      (if simd then lanes2 f v (set1 s) else loop (fun i r => do return upd r i (← f (v i) s)) n (set1 o.zero)) := by
    intro f hf
    have e : (fun i => f s (v i)) = fun i => f (v i) s := funext fun i => hf _ _
    rw [e]
    cases simd with
    | true => rw [hs rfl]; exact cw_lanes
    | false => exact cw_set
  cases op with
  | add => exact hc o.add ha
  | mul => exact hc o.mul hm
  | sub =>
    rcases hop with rfl | h | h
    · exact cw_set
    · cases h
    · cases h
  | div =>
    rcases hop with rfl | h | h
    · exact cw_set
    · cases h
    · cases h

/-- With SIMD `s op v` computes `v op s` for every operator. -/
theorem C73_swapped (o : Ops T) (op : Op) (n : Nat) (v : Nat → T) (s : T) :
    binL o true n op s v = binS o true n op v s ∧ Componentwise 4 (fun i => o.app op (v i) s) (binL o true n op s v) := by
  cases op <;> exact ⟨rfl, cw_lanes⟩

/-- Unary minus gives the negated vector, and leaves it in the operand too (`0 - x` stands for `-x` with SIMD). -/
theorem C73_neg (o : Ops T) {simd : Bool} {n : Nat} (hs : simd = true → n = 4) (v : Nat → T)
    (h0 : simd = true → ∀ x, o.sub o.zero x = o.neg x) : Componentwise n (fun i => o.neg (v i)) (neg o simd n v) := by
  cases simd with
  | true =>
    rw [hs rfl]
    have e : (fun i => o.neg (v i)) = fun i => o.sub (set1 o.zero i) (v i) := funext fun i => (h0 rfl _).symm
    rw [e]
    exact cw_lanes
  | false => exact cw_upd (g := fun _ x => o.neg x)

/-- Integer arithmetic without bounds, for the examples. -/
def intOps : Ops Int where
  zero := 0
  add a b := .ok (a + b)
  sub a b := .ok (a - b)
  mul a b := .ok (a * b)
  div a b := if b = 0 then .error .ub else .ok (Int.tdiv a b)
  neg a := .ok (-a)
  abs a := .ok a.natAbs
  floor a := .ok a
  ceil a := .ok a
  sqrt a := .ok a
  lt a b := decide (a < b)
  eq a b := decide (a = b)

/-- The property is false: `10 - (1, 2, 3, 4)` is `(-9, -8, -7, -6)` with SIMD and `(9, 8, 7, 6)` without, `12 / v`
is `v / 12`, and after `w = -v` the operand `v` is `w`. -/
theorem C73_false :
    (binL intOps true 4 .sub 10 (fun i => i + 1)).map (fun r => [r 0, r 1, r 2, r 3]) = .ok [-9, -8, -7, -6] ∧
    (binL intOps false 4 .sub 10 (fun i => i + 1)).map (fun r => [r 0, r 1, r 2, r 3]) = .ok [9, 8, 7, 6] ∧
    (binL intOps true 4 .div 12 (fun i => i + 1)).map (fun r => [r 0, r 1, r 2, r 3]) = .ok [0, 0, 0, 0] ∧
    (neg intOps true 4 (fun i => i + 1)).map (fun r => [r 0, r 1, r 2, r 3]) = .ok [-1, -2, -3, -4] := by decide +kernel

example : (binV intOps false 3 .div (fun i => 10 * i + 7) (fun i => i + 1)).map (fun r => [r 0, r 1, r 2]) = .ok [7, 8, 9] ∧
    (binV intOps false 3 .div (fun i => 10 * i + 7) (fun i => i - 1)).map (fun r => [r 0, r 1, r 2]) = .error .ub := by decide +kernel

/-! ## C86: comparisons, constructors and component-wise functions -/

/-- `==` holds just when all components are equal, `!=` is its negation. -/
theorem C86_eq (o : Ops T) {simd : Bool} {n : Nat} (hs : simd = true → n = 4) (a b : Nat → T) :
    (eqV o simd n a b = true ↔ ∀ i, i < n → o.eq (a i) (b i) = true) ∧ neV o simd n a b = !eqV o simd n a b := by
  cases simd with
  | true =>
    rw [hs rfl]
    refine ⟨?_, rfl⟩
    simp only [eqV, if_true, cmpeq_all, Bool.and_eq_true]
    constructor
    · intro ⟨⟨⟨h0, h1⟩, h2⟩, h3⟩ i hi
      match i, hi with
      | 0, _ => exact h0
      | 1, _ => exact h1
      | 2, _ => exact h2
      | 3, _ => exact h3
    · intro h
      exact ⟨⟨⟨h 0 (by omega), h 1 (by omega)⟩, h 2 (by omega)⟩, h 3 (by omega)⟩
  | false =>
    refine ⟨?_, neLoop_eq⟩
    show eqLoop o a b n 0 = true ↔ _
    rw [eqLoop_iff]
    exact ⟨fun h i hi => h i (Nat.zero_le i) (by omega), fun h j _ hj => h j (by omega)⟩

/-- `abs`, `floor`, `ceil`, casts and filling work on each component; the point `(f, s)` has the components of `f` and
then `s`; `proj` divides by the last component. -/
theorem C86_map {U : Type} (o : Ops T) (f : T → Res T) (u0 : U) (cast : T → Res U) {simd : Bool} {n : Nat}
    (hs : simd = true → n = 4) (v : Nat → T) (x : T) :
    Componentwise n (fun i => f (v i)) (unary o f simd n v) ∧ Componentwise n (fun i => cast (v i)) (as u0 cast n v) ∧
    Componentwise n (fun _ => .ok x) (fill o n x) ∧
    Componentwise (n - 1) (fun i => o.div (v i) (v (n - 1))) (proj o n v) ∧
    (1 ≤ n → Componentwise n (fun i => .ok (if i < n - 1 then v i else x)) (append o n v x)) := by
  refine ⟨?_, cw_set, ?_, cw_set, fun hn => ?_⟩
  · cases simd with
    | true => rw [hs rfl]; exact cw_lanes (f := fun x _ => f x) (b := v)
    | false => exact cw_set
  · exact cw_set (g := fun _ => .ok x)
  · obtain ⟨r, hr⟩ : ∃ r, loop (fun i r => .ok (upd r i (v i))) (n - 1) (set1 o.zero) = .ok r := loop_total
    have h := (loop_set (g := fun i => .ok (v i))).1 hr
    have e : append o n v x = .ok (upd r (n - 1) x) := by
      unfold append
      rw [hr]
      rfl
    rw [e]
    refine ⟨fun t ht i hi => ?_, fun _ => ⟨_, rfl⟩⟩
    simp only [Except.ok.injEq] at ht
    subst ht
    by_cases hc : i < n - 1
    · have := h.1 i hc
      simp only [Except.ok.injEq] at this
      have hne : i ≠ n - 1 := by omega
      simp [hc, upd, hne, this]
    · have : i = n - 1 := by omega
      subst this
      simp [upd]

/-- `min` and `max` of two vectors and `clamp` work on each component. -/
theorem C86_minmax (o : Ops T) {simd : Bool} {n : Nat} (hs : simd = true → n = 4) (v w x : Nat → T) :
    Componentwise n (fun i => .ok (min1 o (v i) (w i))) (minV o simd n v w) ∧
    Componentwise n (fun i => .ok (max1 o (v i) (w i))) (maxV o simd n v w) ∧
    Componentwise n (fun i => .ok (max1 o (min1 o (x i) (w i)) (v i))) (Vect.clamp o simd n x v w) := by
  have hmin : ∀ a b : Nat → T, Componentwise n (fun i => .ok (min1 o (a i) (b i))) (minV o simd n a b) := by
    intro a b
    cases simd with
    | true => rw [hs rfl]; exact cw_lanes (f := fun x y => .ok (min1 o x y))
    | false => exact cw_set (g := fun i => .ok (min1 o (a i) (b i)))
  have hmax : ∀ a b : Nat → T, Componentwise n (fun i => .ok (max1 o (a i) (b i))) (maxV o simd n a b) := by
    intro a b
    cases simd with
    | true => rw [hs rfl]; exact cw_lanes (f := fun x y => .ok (max1 o x y))
    | false => exact cw_set (g := fun i => .ok (max1 o (a i) (b i)))
  refine ⟨hmin v w, hmax v w, ?_⟩
  obtain ⟨m, hm⟩ := (hmin x w).2 fun _ _ => ⟨_, rfl⟩
  have h1 := (hmin x w).1 m hm
  unfold Vect.clamp
  rw [hm]
  simp only [bind, Except.bind]
  refine ⟨fun r hr i hi => ?_, fun _ => (hmax m v).2 fun _ _ => ⟨_, rfl⟩⟩
  have e1 := h1 i hi
  simp only [Except.ok.injEq] at e1
  show Except.ok (max1 o (min1 o (x i) (w i)) (v i)) = _
  rw [e1]
  exact (hmax m v).1 r hr i hi

example : (append intOps 4 (fun i => i) 9).map (fun r => [r 0, r 1, r 2, r 3]) = .ok [0, 1, 2, 9] ∧
    eqV intOps false 3 (fun i => i) (fun i => if i = 2 then 7 else i) = false ∧
    eqV intOps false 2 (fun i => i) (fun i => if i = 2 then 7 else i) = true := by decide +kernel

/-! ## C87: sums, extremes and interpolation in exact arithmetic -/

/-- Exact arithmetic of an ordered field, with a square root. -/
def exact {K : Type} [Field K] [LinearOrder K] (sqrt : K → K) (fl ce : K → K) : Ops K where
  zero := 0
  add a b := .ok (a + b)
  sub a b := .ok (a - b)
  mul a b := .ok (a * b)
  div a b := if b = 0 then .error .ub else .ok (a / b)
  neg a := .ok (-a)
  abs a := .ok (max a (-a))
  floor a := .ok (fl a)
  ceil a := .ok (ce a)
  sqrt a := .ok (sqrt a)
  lt a b := decide (a < b)
  eq a b := decide (a = b)

section
variable {K : Type} [Field K] [LinearOrder K] {sqrt fl ce : K → K}

/-- `dot` is the sum of the products and `norm2` the sum of the squares. -/
theorem C87_dot {simd : Bool} {n : Nat} (hs : simd = true → n = 4) (x y : Nat → K) :
    Vect.dot (exact sqrt fl ce) simd n x y = .ok (∑ i ∈ Finset.range n, x i * y i) ∧
    Vect.norm2 (exact sqrt fl ce) simd n x = .ok (∑ i ∈ Finset.range n, x i ^ 2) := by
  have hd : ∀ y : Nat → K, Vect.dot (exact sqrt fl ce) simd n x y = .ok (∑ i ∈ Finset.range n, x i * y i) := by
    intro y
    cases simd with
    | true =>
      rw [hs rfl]
      simp [Vect.dot, dp, lanes2, exact, loop, Finset.sum_range_succ, bind, Except.bind, pure, Except.pure]
    | false => exact loop_sum
  refine ⟨hd y, ?_⟩
  have : Vect.norm2 (exact sqrt fl ce) simd n x = Vect.dot (exact sqrt fl ce) simd n x x := rfl
  rw [this, hd]
  simp [sq]

/-- `min()` and `max()` of a vector are the least and the greatest of its components. -/
theorem C87_extreme {n : Nat} (hn : 1 ≤ n) (x : Nat → K) :
    (∃ m, minAll (exact sqrt fl ce) n x = .ok m ∧ (∀ i, i < n → m ≤ x i) ∧ ∃ i, i < n ∧ m = x i) ∧
    ∃ m, maxAll (exact sqrt fl ce) n x = .ok m ∧ (∀ i, i < n → x i ≤ m) ∧ ∃ i, i < n ∧ m = x i := by
  constructor
  · obtain ⟨m, h1, h2, i, h3, h4⟩ := loop_min (f := min1 (exact sqrt fl ce)) (le := (· ≤ ·)) le_refl
      (fun _ _ _ => le_trans) (fun a b => by
        simp only [min1, exact, decide_eq_true_eq]
        split
        · rename_i h; exact ⟨le_refl _, le_of_lt h, .inl rfl⟩
        · rename_i h; exact ⟨le_of_not_gt h, le_refl _, .inr rfl⟩) (x := x) (n := n - 1)
    exact ⟨m, h1, fun i hi => h2 i (by omega), i, by omega, h4⟩
  · obtain ⟨m, h1, h2, i, h3, h4⟩ := loop_min (f := max1 (exact sqrt fl ce)) (le := (· ≥ ·)) le_refl
      (fun _ _ _ h h' => le_trans h' h) (fun a b => by
        simp only [max1, exact, decide_eq_true_eq]
        split
        · rename_i h; exact ⟨le_refl _, le_of_lt h, .inl rfl⟩
        · rename_i h; exact ⟨le_of_not_gt h, le_refl _, .inr rfl⟩) (x := x) (n := n - 1)
    exact ⟨m, h1, fun i hi => h2 i (by omega), i, by omega, h4⟩

/-- `lerp(a, b, t)` is `(1 - t) a + t b` in each component. -/
theorem C87_lerp {simd : Bool} {n : Nat} (hs : simd = true → n = 4) (a b : Nat → K) (t : K) :
    Componentwise n (fun i => .ok ((1 - t) * a i + t * b i)) (lerp (exact sqrt fl ce) simd n a b t) := by
  have hV : ∀ (op : Op), op ≠ .div → ∀ v w : Nat → K, ∃ r, binV (exact sqrt fl ce) simd n op v w = .ok r ∧
      ∀ i, i < n → (exact sqrt fl ce).app op (v i) (w i) = .ok (r i) := by
    intro op hop v w
    have h := (C73_ops (exact sqrt fl ce) op hs v w t).1
    obtain ⟨r, hr⟩ := h.2 fun i _ => by cases op <;> first | exact ⟨_, rfl⟩ | exact absurd rfl hop
    exact ⟨r, hr, h.1 r hr⟩
  have hS : ∀ v : Nat → K, ∃ r, binS (exact sqrt fl ce) simd n .mul v t = .ok r ∧
      ∀ i, i < n → (exact sqrt fl ce).app .mul (v i) t = .ok (r i) := by
    intro v
    have h := (C73_ops (exact sqrt fl ce) .mul hs v v t).2.1
    obtain ⟨r, hr⟩ := h.2 fun i _ => ⟨_, rfl⟩
    exact ⟨r, hr, h.1 r hr⟩
  obtain ⟨d, h1, e1⟩ := hV .sub (by decide) b a
  obtain ⟨e, h2, e2⟩ := hS d
  obtain ⟨r, h3, e3⟩ := hV .add (by decide) a e
  unfold lerp
  simp only [h1, h2, h3, bind, Except.bind]
  refine ⟨fun r' hr i hi => ?_, fun _ => ⟨_, rfl⟩⟩
  cases hr
  have f1 := e1 i hi
  have f2 := e2 i hi
  have f3 := e3 i hi
  simp only [Ops.app, exact, Except.ok.injEq] at f1 f2 f3
  show (.ok ((1 - t) * a i + t * b i) : Res K) = _
  rw [← f3, ← f2, ← f1]
  congr 1
  ring

/-- `unit()` divides each component by the norm, `normalize()` does the same to its operand, and the result has norm
one: the squares add up to 1. -/
theorem C87_unit {simd : Bool} {n : Nat} (hs : simd = true → n = 4) (x : Nat → K)
    (hq : sqrt (∑ i ∈ Finset.range n, x i ^ 2) ^ 2 = ∑ i ∈ Finset.range n, x i ^ 2)
    (h0 : ∑ i ∈ Finset.range n, x i ^ 2 ≠ 0) :
    let l := sqrt (∑ i ∈ Finset.range n, x i ^ 2)
    ∃ r, Vect.unit (exact sqrt fl ce) simd n x = .ok r ∧ (∀ i, i < n → r i = x i / l) ∧
      (∃ r', Vect.normalize (exact sqrt fl ce) simd n x = .ok r' ∧ ∀ i, i < n → r' i = x i / l) ∧
      ∑ i ∈ Finset.range n, r i ^ 2 = 1 := by
  intro l
  have hl : l ≠ 0 := by
    intro h
    rw [← hq] at h0
    exact h0 (by show l ^ 2 = 0; rw [h]; ring)
  have hn : Vect.norm (exact sqrt fl ce) simd n x = .ok l := by
    unfold Vect.norm
    rw [(C87_dot hs x x).2]
    rfl
  have hd : ∀ i, (exact sqrt fl ce).div (x i) l = .ok (x i / l) := fun i => by simp [exact, hl]
  have key : ∀ res : Res (Nat → K), Componentwise n (fun i => (exact sqrt fl ce).div (x i) l) res →
      ∃ r, res = .ok r ∧ ∀ i, i < n → r i = x i / l := by
    intro res h
    obtain ⟨r, hr⟩ := h.2 fun i _ => ⟨_, hd i⟩
    refine ⟨r, hr, fun i hi => ?_⟩
    have := h.1 r hr i hi
    dsimp only at this
    rw [hd i, Except.ok.injEq] at this
    exact this.symm
  have hu : Componentwise n (fun i => (exact sqrt fl ce).div (x i) l) (Vect.unit (exact sqrt fl ce) simd n x) := by
    unfold Vect.unit
    rw [hn]
    cases simd with
    | true => rw [hs rfl]; exact cw_lanes
    | false => exact cw_set
  have hm : Componentwise n (fun i => (exact sqrt fl ce).div (x i) l) (Vect.normalize (exact sqrt fl ce) simd n x) := by
    unfold Vect.normalize
    rw [hn]
    cases simd with
    | true => rw [hs rfl]; exact cw_lanes
    | false => exact cw_upd (g := fun _ y => (exact sqrt fl ce).div y l)
  obtain ⟨r, hr, er⟩ := key _ hu
  refine ⟨r, hr, er, key _ hm, ?_⟩
  have : ∑ i ∈ Finset.range n, r i ^ 2 = ∑ i ∈ Finset.range n, x i ^ 2 * (l ^ 2)⁻¹ := by
    apply Finset.sum_congr rfl
    intro i hi
    rw [er i (Finset.mem_range.1 hi), div_pow, div_eq_mul_inv]
  rw [this, ← Finset.sum_mul, ← hq]
  exact mul_inv_cancel₀ (pow_ne_zero 2 hl)

end

example : (Vect.unit (exact (fun _ => (5 : ℚ)) id id) false 2 (fun i => i + 3)).map (fun r => [r 0, r 1]) = .ok [3 / 5, 4 / 5] := by
  decide +kernel

end Rpp.Props
