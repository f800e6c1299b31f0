import Verif.Proof.View

/-!
# C163: views of vectors

Full statement: the vectors that `xy`, `yz`, `zw`, `xyz` and `yzw` give are the components of their letters, also through several of
them: an operation on a view changes these components as the same operation on a vector of its own would, and no others. The operands
may overlap. The last is false for plain assignment (`C163_false`).
-/

namespace Rpp.Props
open Rpp Rpp.View Rpp.Spec.View

variable {T : Type}

/-- **C163.** Operations that compile and are defined do what they mean, for all vectors and operations of the components. Compound
operators are defined for all operands, overlapping or not. -/
theorem C163_step_partial (m : List T) (hm : 2 ≤ m.length) (o : Op T) (hc : Compiles m.length o) (hd : Defined m.length o) :
    ∃ m', step m o = .ok m' ∧ Means m m' o := by
  have res : ∀ p, (comps (List.range m.length) p).isSome → ∃ r : Ref, (Ref.mk 0 m.length).path p = some r ∧
      comps (List.range m.length) p = some (List.range' r.off r.len) ∧ r.off + r.len ≤ m.length ∧ 2 ≤ r.len := by
    intro p hp
    rw [comps_range] at hp ⊢
    cases hr : (Ref.mk 0 m.length).path p with
    | none => rw [hr] at hp; cases hp
    | some r =>
      have := path_within p hr
      dsimp only at this
      exact ⟨r, rfl, rfl, by omega, this.2.2 hm⟩
  have same : ∀ {p q}, (comps (List.range m.length) p).isSome →
      (comps (List.range m.length) p).map (·.length) = (comps (List.range m.length) q).map (·.length) →
      (comps (List.range m.length) q).isSome := by
    intro p q h1 h2
    cases hq : comps (List.range m.length) q with
    | none => rw [hq] at h2; cases hp : comps (List.range m.length) p with
      | none => rw [hp] at h1; cases h1
      | some x => rw [hp] at h2; cases h2
    | some x => rfl
  cases o with
  | set p i x =>
    obtain ⟨r, e, ec, hr, h2⟩ := res p hc
    have hi := hd _ ec
    rw [List.length_range'] at hi
    refine ⟨m.set (r.off + i) x, ?_, _, r.off + i, ec, ?_, ?_⟩
    · unfold step
      simp only [e]
      unfold Ref.put
      rw [if_pos ⟨hi, by omega⟩]
    · rw [List.getElem?_eq_getElem (by rw [List.length_range']; exact hi), List.getElem_range', Nat.one_mul]
    · refine ⟨List.length_set .., rfl, fun a b hab => ?_, fun j hj => ?_⟩
      · cases a with
        | zero =>
          have : r.off + i = b := by simpa using hab
          subst this
          rw [List.getElem?_set_self (by omega)]
          rfl
        | succ a => simp at hab
      · rw [List.getElem?_set_ne (by simp at hj; omega)]
  | store p l =>
    have hc : (comps (List.range m.length) p).map (·.length) = some l.length := hc
    obtain ⟨r, e, ec, hr, h2⟩ := res p (by cases h : comps (List.range m.length) p with
      | none => rw [h] at hc; cases hc
      | some _ => rfl)
    have hl : l.length = r.len := by
      rw [ec] at hc
      have := Option.some.inj hc
      dsimp only at this
      rw [List.length_range'] at this
      exact this.symm
    obtain ⟨d, hdx⟩ : ∃ d, l[0]? = some d := ⟨_, List.getElem?_eq_getElem (by omega)⟩
    obtain ⟨m', e', q1, q2, q3⟩ := loop_ok (f := fun i _ => elem l i) (g := fun i _ => (l[i]?).getD d) hr (fun i hi x => by
      unfold elem; rw [List.getElem?_eq_getElem (by omega)]; rfl) r.len (Nat.le_refl _)
    refine ⟨m', ?_, _, ec, changed hr q1 q2 q3 hl fun i hi x hx => ?_⟩
    · unfold step
      simp only [e]
      rw [if_pos hl, e']
    · rw [List.getElem?_eq_getElem (by omega)]; rfl
  | assign p q =>
    obtain ⟨hc1, hc2⟩ := hc
    obtain ⟨r, e, ec, hr, h2⟩ := res p hc1
    obtain ⟨s, f, fc, hs, -⟩ := res q (same hc1 hc2)
    have hl : r.len = s.len := by
      rw [ec, fc] at hc2
      have := Option.some.inj hc2
      dsimp only at this
      rwa [List.length_range', List.length_range'] at this
    have hcl := (clash_iff (by omega) hl).2 (hd _ _ ec fc)
    obtain ⟨d, hdx⟩ : ∃ d, m[0]? = some d := ⟨_, List.getElem?_eq_getElem (by omega)⟩
    obtain ⟨m', e', q1, q2, q3⟩ := loop_ok (f := fun i _ => s.at m i) (g := fun i _ => (m[s.off + i]?).getD d) hr (fun i hi x => by
      obtain ⟨y, hy, ey⟩ := at_ok (m := m) (r := s) (show i < s.len by omega) hs
      rw [ey, hy]; rfl) r.len (Nat.le_refl _)
    refine ⟨m', ?_, _, _, ec, fc, changed hr q1 q2 q3 ?_ fun i hi x hx => ?_⟩
    · unfold step
      simp only [e, f]
      rw [if_pos hl, hcl, if_neg (by simp), e']
    · rw [pick _ _ _ hs, List.length_take, List.length_drop]; omega
    · rw [pick _ _ _ hs, elem_take (by omega), List.getElem?_eq_getElem (by omega)]; rfl
  | comb g p q =>
    obtain ⟨hc1, hc2⟩ := hc
    obtain ⟨r, e, ec, hr, h2⟩ := res p hc1
    obtain ⟨s, f, fc, hs, -⟩ := res q (same hc1 hc2)
    have hl : r.len = s.len := by
      rw [ec, fc] at hc2
      have := Option.some.inj hc2
      dsimp only at this
      rwa [List.length_range', List.length_range'] at this
    obtain ⟨d, hdx⟩ : ∃ d, m[0]? = some d := ⟨_, List.getElem?_eq_getElem (by omega)⟩
    have el : ∀ i, i < r.len → ∃ y, m[s.off + i]? = some y ∧ elem ((m.drop s.off).take s.len) i = .ok y := by
      intro i hi
      obtain ⟨y, hy, -⟩ := at_ok (m := m) (r := s) (show i < s.len by omega) hs
      refine ⟨y, hy, ?_⟩
      unfold elem
      rw [elem_take (by omega), hy]
    obtain ⟨m', e', q1, q2, q3⟩ := loop_ok (f := fun i x => do let y ← elem ((m.drop s.off).take s.len) i; return g x y)
      (g := fun i x => g x ((m[s.off + i]?).getD d)) hr (fun i hi x => by
        obtain ⟨y, hy, ey⟩ := el i hi
        rw [ey, hy]; rfl) r.len (Nat.le_refl _)
    refine ⟨m', ?_, _, _, ec, fc, changed hr q1 q2 q3 ?_ fun i hi x hx => ?_⟩
    · unfold step
      simp only [e, f]
      rw [if_pos hl, copy_ok hs _ (Nat.le_refl _)]
      exact e'
    · rw [pick _ _ _ hs, pick _ _ _ hr]
      simp only [List.length_zipWith, List.length_take, List.length_drop]; omega
    · obtain ⟨y, hy, -⟩ := el i hi
      rw [pick _ _ _ hs, pick _ _ _ hr, List.getElem?_zipWith, elem_take hi, elem_take (by omega), hx, hy]
      rfl
  | scalar g p q j =>
    obtain ⟨hc1, hc2⟩ := hc
    obtain ⟨r, e, ec, hr, h2⟩ := res p hc1
    obtain ⟨s, f, fc, hs, -⟩ := res q hc2
    have hj : j < s.len := by
      have := hd _ fc
      rwa [List.length_range'] at this
    obtain ⟨y, hy, ey⟩ := at_ok (m := m) hj hs
    obtain ⟨m', e', q1, q2, q3⟩ := loop_ok (f := fun _ x => .ok (g x y)) (g := fun _ x => g x y) hr (fun _ _ _ => rfl) r.len (Nat.le_refl _)
    refine ⟨m', ?_, _, _, s.off + j, y, ec, fc, ?_, hy, changed hr q1 q2 q3 ?_ fun i hi x hx => ?_⟩
    · unfold step
      simp only [e, f, bind, Except.bind, ey]
      exact e'
    · rw [List.getElem?_eq_getElem (by rw [List.length_range']; exact hj), List.getElem_range', Nat.one_mul]
    · rw [pick _ _ _ hr, List.length_map, List.length_take, List.length_drop]; omega
    · rw [pick _ _ _ hr, List.getElem?_map, elem_take hi, hx]; rfl
  | neg g p =>
    obtain ⟨r, e, ec, hr, h2⟩ := res p hc
    obtain ⟨m', e', q1, q2, q3⟩ := loop_ok (f := fun _ x => .ok (g x)) (g := fun _ x => g x) hr (fun _ _ _ => rfl) r.len (Nat.le_refl _)
    refine ⟨m', ?_, _, ec, changed hr q1 q2 q3 ?_ fun i hi x hx => ?_⟩
    · unfold step
      simp only [e]
      exact e'
    · rw [pick _ _ _ hr, List.length_map, List.length_take, List.length_drop]; omega
    · rw [pick _ _ _ hr, List.getElem?_map, elem_take hi, hx]; rfl

/-- **C163.** What the operations mean leaves no choice. -/
theorem C163_unique (m a b : List T) (o : Op T) (ha : Means m a o) (hb : Means m b o) : a = b := by
  have key : ∀ {ps : List Nat} {xs : List T}, Changed m a ps xs → Changed m b ps xs → a = b := by
    rintro ps xs ⟨-, -, a1, a2⟩ ⟨-, -, b1, b2⟩
    refine List.ext_getElem? fun j => ?_
    by_cases hj : j ∈ ps
    · obtain ⟨i, hi⟩ := List.mem_iff_getElem?.1 hj
      rw [a1 i j hi, b1 i j hi]
    · rw [a2 j hj, b2 j hj]
  cases o with
  | set p i x =>
    obtain ⟨ps, j, h1, h2, h⟩ := ha
    obtain ⟨ps', j', h1', h2', h'⟩ := hb
    rw [h1] at h1'; cases h1'
    rw [h2] at h2'; cases h2'
    exact key h h'
  | store p l =>
    obtain ⟨ps, h1, h⟩ := ha
    obtain ⟨ps', h1', h'⟩ := hb
    rw [h1] at h1'; cases h1'
    exact key h h'
  | assign p q =>
    obtain ⟨ps, qs, h1, h2, h⟩ := ha
    obtain ⟨ps', qs', h1', h2', h'⟩ := hb
    rw [h1] at h1'; cases h1'
    rw [h2] at h2'; cases h2'
    exact key h h'
  | comb f p q =>
    obtain ⟨ps, qs, h1, h2, h⟩ := ha
    obtain ⟨ps', qs', h1', h2', h'⟩ := hb
    rw [h1] at h1'; cases h1'
    rw [h2] at h2'; cases h2'
    exact key h h'
  | scalar f p q j =>
    obtain ⟨ps, qs, k, y, h1, h2, h3, h4, h⟩ := ha
    obtain ⟨ps', qs', k', y', h1', h2', h3', h4', h'⟩ := hb
    rw [h1] at h1'; cases h1'
    rw [h2] at h2'; cases h2'
    rw [h3] at h3'; cases h3'
    rw [h4] at h4'; cases h4'
    exact key h h'
  | neg g p =>
    obtain ⟨ps, h1, h⟩ := ha
    obtain ⟨ps', h1', h'⟩ := hb
    rw [h1] at h1'; cases h1'
    exact key h h'

/-- **C163.** Everything else that compiles is undefined. -/
theorem C163_undefined (m : List T) (hm : 2 ≤ m.length) (o : Op T) (hc : Compiles m.length o) (hd : ¬ Defined m.length o) :
    step m o = .error .ub := by
  cases o with
  | set p i x =>
    have hc : (comps (List.range m.length) p).isSome := hc
    unfold Defined at hd
    dsimp only at hd
    rw [comps_range] at hc hd
    cases hr : (Ref.mk 0 m.length).path p with
    | none => rw [hr] at hc; cases hc
    | some r =>
      rw [hr] at hd
      unfold step
      simp only [hr]
      unfold Ref.put
      rw [if_neg]
      intro h
      exact hd fun ps e => by cases e; rw [List.length_range']; exact h.1
  | scalar f p q j =>
    obtain ⟨hc, hc'⟩ := hc
    unfold Defined at hd
    dsimp only at hd
    rw [comps_range] at hc hc' hd
    cases hr : (Ref.mk 0 m.length).path p with
    | none => rw [hr] at hc; cases hc
    | some r =>
      cases hs : (Ref.mk 0 m.length).path q with
      | none => rw [hs] at hc'; cases hc'
      | some s =>
        rw [hs] at hd
        unfold step
        simp only [hr, hs]
        have : s.at m j = .error .ub := by
          unfold Ref.at
          rw [if_neg]
          intro h
          exact hd fun ps e => by cases e; rw [List.length_range']; exact h
        rw [this]; rfl
  | assign p q =>
    obtain ⟨hc, hc'⟩ := hc
    unfold Defined at hd
    dsimp only at hd
    simp only [comps_range] at hc hc' hd
    cases hr : (Ref.mk 0 m.length).path p with
    | none => rw [hr] at hc; cases hc
    | some r =>
      cases hs : (Ref.mk 0 m.length).path q with
      | none => rw [hr, hs] at hc'; cases hc'
      | some s =>
        rw [hr, hs] at hd hc'
        have hl : r.len = s.len := by
          have := Option.some.inj hc'
          dsimp only at this
          rwa [List.length_range', List.length_range'] at this
        have h2 := (path_within p hr).2.2 hm
        unfold step
        simp only [hr, hs]
        rw [if_pos hl, if_pos]
        cases h : r.clash s with
        | true => rfl
        | false =>
          exact absurd (fun ps qs e f => by cases e; cases f; exact (clash_iff (by omega) hl).1 h) hd
  | store p l => exact absurd trivial hd
  | comb f p q => exact absurd trivial hd
  | neg g p => exact absurd trivial hd

/-- **C163** for whole programs: each operation does what it means to what the ones before left. -/
theorem C163_programs_partial : ∀ (ops : List (Op T)) (m : List T), 2 ≤ m.length →
    (∀ o ∈ ops, Compiles m.length o ∧ Defined m.length o) →
    ∃ ms : List (List T), ms.length = ops.length + 1 ∧ ms.head? = some m ∧ (run m ops).toOption = ms.getLast? ∧
      ∀ i o a b, ops[i]? = some o → ms[i]? = some a → ms[i + 1]? = some b → Means a b o
  | [], m, _, _ => ⟨[m], rfl, rfl, rfl, fun i o a b h => by simp at h⟩
  | o :: ops, m, hm, h => by
    obtain ⟨m', e, hM⟩ := C163_step_partial m hm o (h o (by simp)).1 (h o (by simp)).2
    have hl : m'.length = m.length := by
      cases o with
      | set p i x => obtain ⟨_, _, _, _, h, _⟩ := hM; exact h
      | store p l => obtain ⟨_, _, h, _⟩ := hM; exact h
      | assign p q => obtain ⟨_, _, _, _, h, _⟩ := hM; exact h
      | comb f p q => obtain ⟨_, _, _, _, h, _⟩ := hM; exact h
      | scalar f p q j => obtain ⟨_, _, _, _, _, _, _, _, h, _⟩ := hM; exact h
      | neg g p => obtain ⟨_, _, h, _⟩ := hM; exact h
    obtain ⟨ms, h1, h2, h3, h4⟩ := C163_programs_partial ops m' (by omega) (by rw [hl]; exact fun o ho => h o (by simp [ho]))
    refine ⟨m :: ms, by simp [h1], rfl, ?_, ?_⟩
    · unfold run
      simp only [bind, Except.bind, e]
      rw [h3]
      cases ms with
      | nil => simp at h1
      | cons x xs => rw [List.getLast?_cons_cons]
    · intro i o' a b ho ha hb
      cases i with
      | zero =>
        have : o = o' := by simpa using ho
        subst this
        have : m = a := by simpa using ha
        subst this
        have hb : ms[0]? = some b := by simpa using hb
        rw [List.head?_eq_getElem?] at h2
        rw [h2] at hb
        cases hb
        exact hM
      | succ i => exact h4 i o' a b (by simpa using ho) (by simpa using ha) (by simpa using hb)

/-- **C163 is false** for assigning: `v.yz() = v.xy()` and `v.xy() = v.yz()` are undefined for all vectors of three components, while
`v.yz() += v.xy()` is not. -/
theorem C163_false (a b c : T) (f : T → T → T) :
    step [a, b, c] (.assign [.yz] [.xy]) = .error .ub ∧ step [a, b, c] (.assign [.xy] [.yz]) = .error .ub ∧
    step [a, b, c] (.comb f [.yz] [.xy]) = .ok [a, f b a, f c b] := ⟨rfl, rfl, rfl⟩

/-- Views of views, overlapping operands, and an operand that the operation changes. -/
example : run [1, 2, 3, 4] [.comb (· + ·) [.xyz] [.yzw], .scalar (· * ·) [.yzw, .yz] [.zw] 0, .assign [.xy] [.zw], .neg (- ·) [.yz]] =
    .ok ([49, -28, -49, 28] : List Int) := by decide +kernel

/-- They meet the conditions. -/
example : ∀ o ∈ ([.comb (· + ·) [.xyz] [.yzw], .scalar (· * ·) [.yzw, .yz] [.zw] 0, .assign [.xy] [.zw], .neg (- ·) [.yz]] : List (Op Int)),
    Compiles 4 o ∧ Defined 4 o := by
  intro o ho
  simp only [List.mem_cons, List.not_mem_nil, or_false] at ho
  rcases ho with rfl | rfl | rfl | rfl
  · exact ⟨by unfold Compiles; decide, trivial⟩
  · refine ⟨by unfold Compiles; decide, fun qs e => ?_⟩
    have : qs = [2, 3] := Option.some.inj (e.symm.trans (by decide))
    subst this; decide
  · refine ⟨by unfold Compiles; decide, fun ps qs e f => ?_⟩
    have : ps = [0, 1] := Option.some.inj (e.symm.trans (by decide))
    have : qs = [2, 3] := Option.some.inj (f.symm.trans (by decide))
    subst ps qs; right; decide
  · exact ⟨by unfold Compiles; decide, trivial⟩

end Rpp.Props
