import Verif.Proof.FormatText

/-! `format` and `concat`. -/

namespace Rpp
open Rpp.Spec Rpp.Fmt

theorem ok_bind {α β : Type} (a : α) (f : α → Res β) : (Except.ok a >>= f) = f a := rfl

theorem pure_ok {α : Type} (a : α) : (pure a : Res α) = Except.ok a := rfl

theorem at_drop {v : View} (h : v.Valid) {i : Nat} {c : Byte} {r : List Byte}
    (e : v.bytes.drop i = c :: r) : i < v.len ∧ v.at' i = .ok c ∧ v.bytes.drop (i + 1) = r := by
  have hl := View.bytes_length h
  have hi : i < v.bytes.length := by
    rcases Nat.lt_or_ge i v.bytes.length with h1 | h1
    · exact h1
    · rw [List.drop_eq_nil_of_le h1] at e; cases e
  rw [List.drop_eq_getElem_cons hi] at e
  injection e with e1 e2
  refine ⟨by omega, ?_, e2⟩
  rw [View.at_eq h (by omega), e1]

theorem end_drop {v : View} (h : v.Valid) {i : Nat} (e : v.bytes.drop i = []) : ¬ i < v.len := by
  have hl := View.bytes_length h
  have := congrArg List.length e
  simp at this
  omega

/-- Literal bytes and placeholders of a format string. -/
def count : List Byte → Nat × Nat
  | [] => (0, 0)
  | c :: r =>
    if c = ch '%' then
      match r with
      | [] => (0, 1)
      | d :: r' =>
        if d = ch '%' then ((count r').1 + 1, (count r').2)
        else ((count (d :: r')).1, (count (d :: r')).2 + 1)
    else ((count r).1 + 1, (count r).2)

theorem count_le : ∀ l, (count l).1 ≤ l.length
  | [] => by simp [count]
  | [c] => by unfold count; split <;> simp [count]
  | c :: d :: r => by
    have h1 := count_le r
    have h2 := count_le (d :: r)
    unfold count
    split
    · simp only
      split
      · simp; omega
      · simp at h2 ⊢; omega
    · simp at h2 ⊢; omega

theorem parseLoop_eq {fmt : View} (h : fmt.Valid) : ∀ fuel i length args, fmt.len < fuel + i →
    i ≤ fmt.len → length + (fmt.bytes.drop i).length < 2 ^ 64 →
    parseLoop fmt fuel i length args =
      .ok (length + (count (fmt.bytes.drop i)).1, args + (count (fmt.bytes.drop i)).2) := by
  intro fuel
  induction fuel with
  | zero => intro i length args h1 h2 _; omega
  | succ fuel ih =>
    intro i length args h1 h2 h3
    unfold parseLoop
    cases hd : fmt.bytes.drop i with
    | nil => rw [if_neg (end_drop h hd)]; simp [count]
    | cons c r =>
      obtain ⟨a1, a2, a3⟩ := at_drop h hd
      rw [hd] at h3
      simp only [List.length_cons] at h3
      rw [if_pos a1]
      simp only [a2, bind, Except.bind]
      have ih1 := ih (i + 1)
      rw [a3] at ih1
      by_cases hc : c = ch '%'
      · rw [if_pos hc]
        cases r with
        | nil =>
          rw [if_neg (end_drop h a3), ih1 _ _ (by omega) (by omega) (by simp at h3 ⊢; omega)]
          simp [count, hc]
        | cons d r' =>
          obtain ⟨b1, b2, b3⟩ := at_drop h a3
          simp only [List.length_cons] at h3
          rw [if_pos b1]
          simp only [b2]
          by_cases hd' : d = ch '%'
          · rw [if_pos hd']
            have ih2 := ih (i + 2)
            rw [show i + 2 = i + 1 + 1 from rfl, b3] at ih2
            rw [wadd_eq (by omega), ih2 _ _ (by omega) (by omega) (by omega)]
            simp [count, hc, hd']
            omega
          · rw [if_neg hd', ih1 _ _ (by omega) (by omega) (by simp; omega)]
            rw [show count (c :: d :: r') = ((count (d :: r')).1, (count (d :: r')).2 + 1) by
              rw [count]; simp only [hc, if_true, hd', if_false]]
            simp only [Except.ok.injEq, Prod.mk.injEq, true_and]
            omega
      · rw [if_neg hc, wadd_eq (by omega), ih1 _ _ (by omega) (by omega) (by omega)]
        rw [show count (c :: r) = ((count r).1 + 1, (count r).2) by
          conv => lhs; unfold count
          simp only [hc, if_false]]
        simp only [Except.ok.injEq, Prod.mk.injEq, and_true]
        omega

theorem parse_fmt_eq {fmt : View} (h : fmt.Valid) : parse_fmt fmt = .ok (count fmt.bytes) := by
  unfold parse_fmt
  have hl := View.bytes_length h
  have := h.1; have := h.2
  rw [parseLoop_eq h _ _ _ _ (by omega) (by omega) (by simp; omega)]
  simp

/-! `subst` -/

theorem subst_isSome : ∀ l args, (subst l args).isSome = decide ((count l).2 = args.length)
  | [], [] => by simp [subst, count]
  | [], a :: args => by simp [subst, count]
  | [c], args => by
    unfold subst count
    by_cases hc : c = ch '%'
    · rw [if_pos hc, if_pos hc]
      match args with
      | [] => rfl
      | [a] => rfl
      | a :: b :: args => simp
    · rw [if_neg hc, if_neg hc]
      have := subst_isSome [] args
      simpa [count] using this
  | c :: d :: r, args => by
    unfold subst count
    by_cases hc : c = ch '%'
    · rw [if_pos hc, if_pos hc]
      by_cases hd : d = ch '%'
      · simp only [hd, if_true]
        have := subst_isSome r args
        simpa using this
      · simp only [hd, if_false]
        match args with
        | [] => simp
        | a :: args =>
          have := subst_isSome (d :: r) args
          simpa using this
    · rw [if_neg hc, if_neg hc]
      have := subst_isSome (d :: r) args
      simpa using this

theorem subst_length : ∀ l args t, subst l args = some t →
    t.length = (count l).1 + (args.map List.length).sum
  | [], [], t, h => by simp [subst] at h; subst h; simp [count]
  | [], a :: args, t, h => by simp [subst] at h
  | [c], args, t, h => by
    unfold subst at h
    by_cases hc : c = ch '%'
    · rw [if_pos hc] at h
      match args, h with
      | [a], h => injection h with h; subst h; simp [count, hc]
    · rw [if_neg hc] at h
      cases e : subst [] args with
      | none => rw [e] at h; cases h
      | some t' =>
        rw [e] at h
        injection h with h
        have := subst_length [] args t' e
        rw [← h, List.length_cons, this]
        simp [count, hc]; omega
  | c :: d :: r, args, t, h => by
    unfold subst at h
    by_cases hc : c = ch '%'
    · rw [if_pos hc] at h
      by_cases hd : d = ch '%'
      · simp only [hd, if_true] at h
        cases e : subst r args with
        | none => rw [e] at h; cases h
        | some t' =>
          rw [e] at h
          injection h with h
          have := subst_length r args t' e
          rw [← h, List.length_cons, this]
          simp [count, hc, hd]; omega
      · simp only [hd, if_false] at h
        match args, h with
        | a :: args, h =>
          simp only at h
          cases e : subst (d :: r) args with
          | none => rw [e] at h; cases h
          | some t' =>
            rw [e] at h
            injection h with h
            have := subst_length (d :: r) args t' e
            rw [← h, List.length_append, this]
            rw [show count (c :: d :: r) = ((count (d :: r)).1, (count (d :: r)).2 + 1) by
              rw [count]; simp only [hc, if_true, hd, if_false]]
            simp; omega
    · rw [if_neg hc] at h
      cases e : subst (d :: r) args with
      | none => rw [e] at h; cases h
      | some t' =>
        rw [e] at h
        injection h with h
        have := subst_length (d :: r) args t' e
        rw [← h, List.length_cons, this]
        rw [show count (c :: d :: r) = ((count (d :: r)).1 + 1, (count (d :: r)).2) by
          conv => lhs; unfold count
          simp only [hc, if_false]]
        simp only; omega

/-! The writing loop. -/

theorem EveryOf_iff {P : Val → Prop} : ∀ {vs : List Val}, EveryOf P vs ↔ ∀ v ∈ vs, Every P v
  | [] => by simp [EveryOf]
  | v :: r => by unfold EveryOf; rw [EveryOf_iff]; simp

theorem writeLoop_put {fmt : View} (h : fmt.Valid) : ∀ fuel i args t, fmt.len < fuel + i →
    i ≤ fmt.len → EveryOf ValidPart args →
    subst (fmt.bytes.drop i) (args.map text) = some t →
    ∀ s idx, Put s idx t (writeLoop fmt fuel i s idx args) := by
  intro fuel
  induction fuel with
  | zero => intro i args t h1 h2; omega
  | succ fuel ih =>
    intro i args t h1 h2 hv ht s idx
    cases hd : fmt.bytes.drop i with
    | nil =>
      rw [hd] at ht
      cases args with
      | nil =>
        simp [subst] at ht
        subst ht
        unfold writeLoop
        rw [if_neg (end_drop h hd)]
        exact Put.nil s idx
      | cons a args => simp [subst] at ht
    | cons c r =>
      obtain ⟨a1, a2, a3⟩ := at_drop h hd
      rw [hd] at ht
      have ih1 := ih (i + 1)
      rw [a3] at ih1
      by_cases hc : c = ch '%'
      · cases r with
        | nil =>
          unfold subst at ht
          rw [if_pos hc] at ht
          cases args with
          | nil => simp at ht
          | cons a args =>
            cases args with
            | cons b args => simp at ht
            | nil =>
              simp at ht
              subst ht
              unfold writeLoop
              rw [if_pos a1]
              unfold EveryOf at hv
              simp only [a2, hc, if_true, if_neg (end_drop h a3), bind_assoc, pure_bind, Bool.false_eq_true, if_false]
              show Put s idx (text a) (writeV s idx a >>= _)
              rw [← List.append_nil (text a)]
              refine Put.step (writeV_put a hv.1 s idx) ?_
              exact ih1 [] [] (by omega) (by omega) trivial rfl _ _
        | cons d r' =>
          obtain ⟨b1, b2, b3⟩ := at_drop h a3
          unfold subst at ht
          rw [if_pos hc] at ht
          by_cases hd' : d = ch '%'
          · simp only [hd', if_true] at ht
            cases e : subst r' (args.map text) with
            | none => rw [e] at ht; cases ht
            | some t' =>
              rw [e] at ht
              injection ht with ht
              have ih2 := ih (i + 2) args t' (by omega) (by omega) hv
              rw [show i + 2 = i + 1 + 1 from rfl, b3] at ih2
              have ih2 := ih2 e
              rw [← ht]
              show Put s idx ([ch '%'] ++ t') _
              cases args with
              | nil =>
                unfold writeLoop
                rw [if_pos a1]
                simp only [a2, b2, hc, hd', if_true, b1, not_true_eq_false, if_false, ne_eq]
                exact Put.step (writeChar_put s idx _) (ih2 _ _)
              | cons a args =>
                unfold writeLoop
                rw [if_pos a1]
                simp only [a2, b2, hc, hd', if_true, b1]
                exact Put.step (writeChar_put s idx _) (ih2 _ _)
          · simp only [hd', if_false] at ht
            cases args with
            | nil => simp at ht
            | cons a args =>
              simp only [List.map_cons] at ht
              cases e : subst (d :: r') (args.map text) with
              | none => rw [e] at ht; cases ht
              | some t' =>
                rw [e] at ht
                injection ht with ht
                unfold EveryOf at hv
                have ih2 := ih1 args t' (by omega) (by omega) hv.2 e
                rw [← ht]
                unfold writeLoop
                rw [if_pos a1]
                simp only [a2, b2, hc, hd', if_true, b1, ok_bind, pure_ok, decide_false,
                  Bool.false_eq_true, if_false]
                exact Put.step (writeV_put a hv.1 s idx) (ih2 _ _)
      · have hs : subst (c :: r) (args.map text) = (subst r (args.map text)).map (c :: ·) := by
          conv => lhs; unfold subst
          simp only [hc, if_false]
        rw [hs] at ht
        cases e : subst r (args.map text) with
        | none => rw [e] at ht; cases ht
        | some t' =>
          rw [e] at ht
          injection ht with ht
          have ih2 := ih1 args t' (by omega) (by omega) hv e
          rw [← ht]
          show Put s idx ([c] ++ t') _
          cases args with
          | nil =>
            unfold writeLoop
            rw [if_pos a1]
            simp only [a2, hc, ok_bind, if_false]
            exact Put.step (writeChar_put s idx _) (ih2 _ _)
          | cons a args =>
            unfold writeLoop
            rw [if_pos a1]
            simp only [a2, hc, ok_bind, if_false]
            exact Put.step (writeChar_put s idx _) (ih2 _ _)

theorem writeLoop_die {fmt : View} (h : fmt.Valid) : ∀ fuel i, fmt.len < fuel + i → i ≤ fmt.len →
    subst (fmt.bytes.drop i) [] = none →
    ∀ s idx, Fits s (idx + (count (fmt.bytes.drop i)).1) →
    writeLoop fmt fuel i s idx [] = .error .die := by
  intro fuel
  induction fuel with
  | zero => intro i h1 h2; omega
  | succ fuel ih =>
    intro i h1 h2 ht s idx hf
    cases hd : fmt.bytes.drop i with
    | nil => rw [hd] at ht; simp [subst] at ht
    | cons c r =>
      obtain ⟨a1, a2, a3⟩ := at_drop h hd
      rw [hd] at ht hf
      have ih1 := ih (i + 1)
      rw [a3] at ih1
      unfold writeLoop
      rw [if_pos a1]
      by_cases hc : c = ch '%'
      · simp only [a2, hc, ok_bind, if_true]
        cases r with
        | nil => rw [if_pos (by simpa using end_drop h a3)]; rfl
        | cons d r' =>
          obtain ⟨b1, b2, b3⟩ := at_drop h a3
          rw [if_neg (by simpa using b1)]
          by_cases hd' : d = ch '%'
          · subst hd'
            simp only [b2, ok_bind, pure_ok, ne_eq, not_true_eq_false, if_false]
            have hf' : Fits s (idx + ((count r').1 + 1)) := by simpa [count, hc] using hf
            have ht' : subst r' [] = none := by simpa [subst, hc] using ht
            have hf1 : Fits s (idx + [ch '%'].length) := hf'.mono (by simp)
            rw [writeChar_put s idx (ch '%') hf1]
            have ih2 := ih (i + 2) (by omega) (by omega)
            rw [show i + 2 = i + 1 + 1 from rfl, b3] at ih2
            refine ih2 ht' _ _ ?_
            have := hf'.put (i := idx) (t := [ch '%']) (by simp)
            exact this.mono (by simp; omega)
          · simp only [b2, ok_bind, pure_ok, hd', ne_eq, not_false_eq_true, if_true]
            rfl
      · simp only [a2, hc, ok_bind, if_false]
        have hcount : (count (c :: r)).1 = (count r).1 + 1 := by
          conv => lhs; unfold count
          simp only [hc, if_false]
        have hsub : subst r [] = none := by
          unfold subst at ht
          simp only [hc, if_false] at ht
          simpa using ht
        rw [hcount] at hf
        have hf1 : Fits s (idx + [c].length) := hf.mono (by simp)
        rw [writeChar_put s idx c hf1]
        refine ih1 (by omega) (by omega) hsub _ _ ?_
        have := hf.put (i := idx) (t := [c]) (by simp)
        exact this.mono (by simp; omega)

theorem fresh_fits {n : Nat} (h : n < 2 ^ 63) : Fits ⟨List.replicate n none, n⟩ n :=
  ⟨Nat.le_refl _, by simp, h⟩

theorem fresh_put (t : List Byte) :
    (Str.mk (List.replicate t.length none) t.length).put 0 t = ⟨t.map some, t.length⟩ := by
  unfold Str.put; simp

theorem format_length_eq {fmt : View} (h : fmt.Valid) {args : List Val} (hv : EveryOf ValidPart args)
    {t : List Byte} (ht : subst fmt.bytes (args.map text) = some t) (hl : t.length < 2 ^ 63) :
    format_length fmt args = .ok t.length := by
  have h1 := subst_length _ _ _ ht
  have h2 := subst_isSome fmt.bytes (args.map text)
  rw [ht] at h2
  have h2 : (count fmt.bytes).2 = args.length := by simpa using h2.symm
  unfold format_length
  rw [parse_fmt_eq h]
  simp only [ok_bind]
  cases args with
  | nil => simp at h1; rw [h1]; rfl
  | cons a args =>
    simp only
    rw [if_neg (by simpa using h2), measureAll_eq _ hv]
    have e : (List.map (fun v => (text v).length) (a :: args)).sum =
        (List.map List.length (List.map text (a :: args))).sum := by simp [List.map_map]; rfl
    rw [e]
    unfold wadd
    rw [Nat.add_mod_mod, ← h1, Nat.mod_eq_of_lt (by omega)]
    rfl

theorem format_ok {fmt : View} (h : fmt.Valid) {args : List Val} (hv : EveryOf ValidPart args)
    {t : List Byte} (ht : subst fmt.bytes (args.map text) = some t) (hl : t.length < 2 ^ 63) :
    format fmt args = .ok ⟨t.map some, t.length⟩ := by
  unfold format
  rw [format_length_eq h hv ht hl]
  simp only [ok_bind, Str.set_length, Str.withCapacity, List.length_replicate, Nat.le_refl, if_true]
  have hp := writeLoop_put h (fmt.len + 1) 0 args t (by omega) (by omega) hv (by simpa using ht)
    ⟨List.replicate t.length none, t.length⟩ 0 (by simpa using fresh_fits hl)
  rw [hp, fresh_put]
  simp [ok_bind, pure_ok]

theorem format_die {fmt : View} (h : fmt.Valid) {args : List Val}
    (ht : subst fmt.bytes (args.map text) = none) : format fmt args = .error .die := by
  have h2 := subst_isSome fmt.bytes (args.map text)
  rw [ht] at h2
  have h2 : (count fmt.bytes).2 ≠ args.length := by simpa using h2.symm
  unfold format format_length
  rw [parse_fmt_eq h]
  simp only [ok_bind]
  cases args with
  | cons a args => simp only; rw [if_pos h2]; rfl
  | nil =>
    have hc := count_le fmt.bytes
    have hl := View.bytes_length h
    have := h.1; have := h.2
    simp only [ok_bind, pure_ok, Str.set_length, Str.withCapacity, List.length_replicate, Nat.le_refl,
      if_true]
    rw [writeLoop_die h (fmt.len + 1) 0 (by omega) (by omega) (by simpa using ht)
      ⟨List.replicate (count fmt.bytes).1 none, (count fmt.bytes).1⟩ 0
      (by simpa using fresh_fits (n := (count fmt.bytes).1) (by omega))]
    rfl

/-! ### `concat` -/

theorem join_length (sep : List Byte) : ∀ l : List (List Byte),
    (join sep l).length = (l.map List.length).sum + sep.length * (l.length - 1)
  | [] => by simp [join]
  | [x] => by simp [join]
  | x :: y :: r => by
    have ih := join_length sep (y :: r)
    unfold join
    simp only [List.length_append, ih, List.map_cons, List.sum_cons, List.length_cons]
    rw [show r.length + 1 + 1 - 1 = r.length + 1 by omega, show r.length + 1 - 1 = r.length by omega,
      Nat.mul_add]
    omega

theorem concatLoop_put {sep : View} (hs : sep.Valid) (L : Nat) : ∀ (l : List View),
    (∀ v ∈ l, v.Valid) → ∀ s idx, idx + (join sep.bytes (l.map View.bytes)).length = L →
    Put s idx (join sep.bytes (l.map View.bytes)) (concatLoop sep L s idx l)
  | [], _, s, idx, _ => Put.nil s idx
  | [x], hv, s, idx, hL => by
    have hx := hv x (by simp)
    unfold concatLoop
    show Put s idx x.bytes _
    rw [← List.append_nil x.bytes]
    refine Put.step (write_put hx.1) ?_
    simp only [List.map_cons, List.map_nil, join] at hL
    simp only
    rw [if_neg (by omega)]
    exact Put.nil _ _
  | x :: y :: r, hv, s, idx, hL => by
    have hx := hv x (by simp)
    have ih := concatLoop_put hs L (y :: r) (fun v h => hv v (List.mem_cons_of_mem _ h))
    unfold concatLoop
    simp only [List.map_cons, join, List.append_assoc] at hL ih ⊢
    simp only [List.length_append] at hL
    refine Put.step (write_put hx.1) ?_
    simp only
    refine Put.step ?_ (ih _ _ (by omega))
    by_cases h : idx + x.bytes.length < L
    · rw [if_pos h]; exact write_put hs.1
    · rw [if_neg h]
      have : sep.bytes = [] := List.eq_nil_of_length_eq_zero (by omega)
      rw [this]
      exact Put.nil _ _

theorem foldr_wadd : ∀ l : List Nat, l.foldr wadd 0 = l.sum % 2 ^ 64
  | [] => rfl
  | a :: l => by
    rw [List.foldr_cons, foldr_wadd l]
    unfold wadd
    rw [Nat.add_mod_mod, List.sum_cons]

theorem concat_ok {sep : View} (hs : sep.Valid) {l : List View} (hv : ∀ v ∈ l, v.Valid)
    (hl : (join sep.bytes (l.map View.bytes)).length < 2 ^ 63) :
    concat sep l = .ok ⟨(join sep.bytes (l.map View.bytes)).map some,
      (join sep.bytes (l.map View.bytes)).length⟩ := by
  unfold concat
  by_cases h0 : l.length = 0
  · have : l = [] := List.eq_nil_of_length_eq_zero h0
    subst this
    rfl
  · rw [if_neg h0]
    have e1 : l.map View.len = (l.map View.bytes).map List.length := by
      rw [List.map_map]
      refine List.map_congr_left (fun v hm => ?_)
      exact (View.bytes_length (hv v hm)).symm
    have e2 : wadd ((l.map View.len).foldr wadd 0) (wmul sep.len (l.length - 1)) =
        (join sep.bytes (l.map View.bytes)).length := by
      rw [foldr_wadd, e1]
      have := join_length sep.bytes (l.map View.bytes)
      rw [List.length_map, View.bytes_length hs] at this
      unfold wadd wmul
      rw [Nat.add_mod_mod, Nat.mod_add_mod, ← this, Nat.mod_eq_of_lt (by omega)]
    simp only [e2]
    have hp := concatLoop_put hs _ l hv
      ⟨List.replicate (join sep.bytes (l.map View.bytes)).length none, _⟩ 0 (Nat.zero_add _)
      (by simpa using fresh_fits hl)
    simp only [ok_bind, pure_ok, Str.set_length, Str.withCapacity, List.length_replicate, Nat.le_refl,
      if_true]
    rw [hp, fresh_put]
    rfl

end Rpp
