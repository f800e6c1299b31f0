import Verif.Model.Sched

namespace Rpp

/-- An invariant that every step keeps holds after every schedule. -/
theorem runAll_inv {σ ε : Type} {step : σ → ε → Res σ} {I : σ → Prop}
    (h : ∀ s e, I s → ∃ s', step s e = .ok s' ∧ I s') : ∀ (es : List ε) (s : σ), I s →
    ∃ s', runAll step s es = .ok s' ∧ I s'
  | [], s, hs => ⟨s, rfl, hs⟩
  | e :: r, s, hs => by
    obtain ⟨s1, h1, h2⟩ := h s e hs
    unfold runAll
    rw [h1]
    exact runAll_inv h r s1 h2

/-- The same for schedules of events of a certain kind. -/
theorem runAll_inv_of {σ ε : Type} {step : σ → ε → Res σ} {I : σ → Prop} {P : ε → Prop}
    (h : ∀ s e, P e → I s → ∃ s', step s e = .ok s' ∧ I s') : ∀ (es : List ε) (s : σ),
    (∀ e ∈ es, P e) → I s → ∃ s', runAll step s es = .ok s' ∧ I s'
  | [], s, _, hs => ⟨s, rfl, hs⟩
  | e :: r, s, hp, hs => by
    obtain ⟨s1, h1, h2⟩ := h s e (hp e (.head _)) hs
    unfold runAll
    rw [h1]
    exact runAll_inv_of h r s1 (fun e he => hp e (.tail _ he)) h2

/-- A measure that no event makes larger and the chosen ones make smaller is used up after enough of the
chosen ones. -/
theorem runAll_drain {σ ε : Type} {step : σ → ε → Res σ} {I : σ → Prop} {P : ε → Prop}
    (h : ∀ s e, P e → I s → ∃ s', step s e = .ok s' ∧ I s') (m : σ → Nat) (g : ε → Bool)
    (hm : ∀ s e s', P e → I s → step s e = .ok s' → m s' ≤ m s - (if g e then 1 else 0)) :
    ∀ (es : List ε) (s s' : σ), (∀ e ∈ es, P e) → I s → runAll step s es = .ok s' →
    m s' ≤ m s - es.countP g
  | [], s, s', _, _, h1 => by cases h1; simp
  | e :: r, s, s', hp, hs, h1 => by
    obtain ⟨s1, h2, h3⟩ := h s e (hp e (.head _)) hs
    unfold runAll at h1
    rw [h2] at h1
    have := runAll_drain h m g hm r s1 s' (fun e he => hp e (.tail _ he)) h3 h1
    have := hm s e s1 (hp e (.head _)) hs h2
    rw [List.countP_cons]
    split at this <;> rename_i hg
    · rw [if_pos hg]; omega
    · rw [if_neg hg]; omega

theorem runAll_append {σ ε : Type} (step : σ → ε → Res σ) : ∀ (as bs : List ε) (s s' : σ),
    runAll step s as = .ok s' → runAll step s (as ++ bs) = runAll step s' bs
  | [], bs, s, s', h => by cases h; rfl
  | a :: as, bs, s, s', h => by
    unfold runAll at h
    rw [List.cons_append]
    conv => lhs; unfold runAll
    cases h1 : step s a with
    | error x => rw [h1] at h; cases h
    | ok s1 => rw [h1] at h; exact runAll_append step as bs s1 s' h

theorem sum_set {α : Type} (f : α → Nat) : ∀ (l : List α) (i : Nat) (a x : α), l[i]? = some x →
    ((l.set i a).map f).sum + f x = (l.map f).sum + f a
  | [], i, a, x, h => by simp at h
  | y :: l, 0, a, x, h => by
    simp at h; subst h
    simp only [List.set_cons_zero, List.map_cons, List.sum_cons]; omega
  | y :: l, i + 1, a, x, h => by
    simp at h
    have := sum_set f l i a x h
    simp only [List.set_cons_succ, List.map_cons, List.sum_cons]; omega

theorem le_sum {α : Type} (f : α → Nat) : ∀ (l : List α) (i : Nat) (x : α), l[i]? = some x →
    f x ≤ (l.map f).sum
  | [], i, x, h => by simp at h
  | y :: l, 0, x, h => by
    simp at h; subst h
    simp only [List.map_cons, List.sum_cons]; omega
  | y :: l, i + 1, x, h => by
    simp at h
    have := le_sum f l i x h
    simp only [List.map_cons, List.sum_cons]; omega

theorem getElem?_set_of {α : Type} {l : List α} {i : Nat} {x : α} (h : l[i]? = some x) (a : α) (j : Nat) :
    (l.set i a)[j]? = if j = i then some a else l[j]? := by
  have hlt := (List.getElem?_eq_some_iff.mp h).1
  rw [List.getElem?_set]
  by_cases e : i = j
  · subst e; simp [hlt]
  · rw [if_neg e, if_neg (fun h => e h.symm)]

end Rpp
