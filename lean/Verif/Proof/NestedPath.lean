import Verif.Proof.NestedFocus

/-!
# Proofs: paths into nested containers
-/

namespace Rpp.Nested
open Rpp

theorem flat_mem_ne {F : Nat → List Nat} {n i j x : Nat} (hj : j < n) (hji : j ≠ i) (hx : x ∈ F j) :
    x ∈ (List.range' 0 n).flatMap (upd F i []) :=
  mem_flat hj (by unfold upd; rw [if_neg hji]; exact hx)

/-- The footprints of different elements are disjoint. -/
theorem flat_dis {F : Nat → List Nat} {n i j x : Nat} (hn : ((List.range' 0 n).flatMap F).Nodup) (hi : i < n) (hj : j < n) (hij : i ≠ j)
    (h1 : x ∈ F i) (h2 : x ∈ F j) : False :=
  nodup_dis ((flat_one hi).nodup_iff.1 hn) h1 (flat_mem_ne hj (Ne.symm hij) h2)

/-- Two footprints replaced. -/
theorem flat_two {F : Nat → List Nat} {n i j : Nat} {x y : List Nat} (hi : i < n) (hj : j < n) (hij : i ≠ j) :
    ((List.range' 0 n).flatMap (upd (upd F j y) i x)).Perm (x ++ (y ++ (List.range' 0 n).flatMap (upd (upd F j []) i []))) := by
  have h1 := flat_upd (F := upd F j y) (i := i) (x := x) n 0 (Nat.zero_le _) (by omega)
  have hsw : ∀ y, upd (upd F j y) i [] = upd (upd F i []) j y := fun y => by
    funext k
    unfold upd
    by_cases a : k = i
    · subst a; simp [hij]
    · by_cases b : k = j
      · subst b; simp [Ne.symm hij]
      · simp [a, b]
  have h2 := flat_upd (F := upd F i []) (i := j) (x := y) n 0 (Nat.zero_le _) (by omega)
  rw [hsw] at h1
  rw [hsw]
  exact h1.trans (List.Perm.append_left _ h2)

/-- The children of an object. -/
theorem step_foc {m : Mem} {t t1 : Ty} {l : Loc} {T : Tree} {f : List Nat} {a : Acc} (hr : Rep m.obj t l T f) (hn : f.Nodup) (hlf : l.blk ∉ f)
    (hl : l.blk ∈ m.live) (ht : t.at [a] = some t1) :
    (∀ e, T.get [a] = .error e → locate m l [a] = .error e) ∧
    ∀ T1, T.get [a] = .ok T1 → ∃ K f1 C, locate m l [a] = .ok K ∧
      Foc (fun m T f => Rep m t l T f) (Under l) m.obj f t1 K T1 f1 C (fun X => Tree.set X T [a]) := by
  cases t with
  | num => cases a <;> simp [Ty.at] at ht
  | vec t =>
    cases a with
    | idx i =>
      simp [Ty.at] at ht
      subst ht
      obtain ⟨ts, d, cap, rfl, h2, h3, h4⟩ := hr
      have hloc : locate m l [.idx i] = if i < ts.length then elemAt d i else .error .die := by
        simp only [locate, load_ok hl h2, bind, Except.bind]
        split
        · cases elemAt d i <;> rfl
        · rfl
      rw [hloc]
      by_cases hi : i < ts.length
      · rw [if_pos hi]
        have hg : (Tree.vec ts).get [.idx i] = .ok ts[i] := by simp [Tree.get, hi]
        rw [hg]
        refine ⟨fun e h => (by cases h), ?_⟩
        intro T1 hT1
        cases hT1
        rcases h4 with ⟨_, e2, _⟩ | ⟨b, F, e1, e2, e3, e4⟩
        · omega
        subst e1
        have hiv : ts[i]? = some ts[i] := List.getElem?_eq_getElem hi
        have hn' := hn
        rw [e3, List.nodup_cons] at hn'
        have hbl : b ≠ l.blk := fun h => hlf (by rw [e3, ← h]; exact List.mem_cons_self)
        refine ⟨⟨b, [.elem i]⟩, F i, b :: (List.range' 0 ts.length).flatMap (upd F i []), rfl, ?_, e4 i _ hiv, .inr List.mem_cons_self, ?_⟩
        · rw [e3]
          exact (List.Perm.cons _ (flat_one hi)).trans List.perm_middle.symm
        · intro m2 X g' hm hX
          refine ⟨b :: (List.range' 0 ts.length).flatMap (upd F i g'), ?_, ?_⟩
          · exact (List.Perm.cons _ (flat_upd _ _ (Nat.zero_le _) (by omega))).trans List.perm_middle.symm
          · simp only [Tree.set, hiv]
            refine ⟨ts.set i X, some b, cap, rfl, ?_, by simpa using h3, .inr ⟨b, upd F i g', rfl, e2, by simp, fun j U hj => ?_⟩⟩
            · rw [hm l (.inl (Under.refl _)) (rep_not_under hbl), h2, List.length_set]
            · by_cases hji : j = i
              · subst hji
                rw [List.getElem?_set_self hi] at hj
                cases hj
                simpa [upd] using hX
              · rw [List.getElem?_set_ne (Ne.symm hji)] at hj
                have hjl := (List.getElem?_eq_some_iff.1 hj).1
                have hu : upd F i g' j = F j := by unfold upd; rw [if_neg hji]
                rw [hu]
                refine rep_frame (e4 j U hj) (fun k hk => hm k (.inr ?_) (elem_disj hji hk)) (fun k hk => hm k (.inr ?_) (fun hu => ?_))
                · rw [hk.1]; exact List.mem_cons_self
                · exact List.mem_cons_of_mem _ (flat_mem_ne hjl hji hk)
                · exact hn'.1 (mem_flat hjl (by have q : k.blk = b := hu.1; exact q ▸ hk))
      · rw [if_neg hi]
        have hg : (Tree.vec ts).get [.idx i] = .error .die := by simp [Tree.get, List.getElem?_eq_none (Nat.le_of_not_lt hi)]
        rw [hg]
        exact ⟨fun e h => by cases h; rfl, fun T1 h => by cases h⟩
    | _ => simp [Ty.at] at ht
  | box t =>
    cases a with
    | deref =>
      simp [Ty.at] at ht
      subst ht
      rcases hr with ⟨rfl, h2, h3⟩ | ⟨T', b, g, rfl, h2, h3, h4⟩
      · refine ⟨fun e h => ?_, fun T1 h => by simp [Tree.get] at h⟩
        simp [Tree.get] at h
        subst h
        simp only [locate, load_ok hl h2, bind, Except.bind]
      · refine ⟨fun e h => by simp [Tree.get] at h, fun T1 h => ?_⟩
        simp [Tree.get] at h
        subst h
        refine ⟨⟨b, []⟩, g, [b], by simp only [locate, load_ok hl h2, bind, Except.bind], ?_, h4, .inr (by simp), fun m2 X g' hm hX =>
          ⟨b :: g', ?_, .inr ⟨X, b, g', by simp [Tree.set], ?_, rfl, hX⟩⟩⟩
        · rw [h3]; simpa using (List.perm_append_comm (l₁ := [b]) (l₂ := g))
        · simpa using (List.perm_append_comm (l₁ := [b]) (l₂ := g'))
        · have hbl : b ≠ l.blk := fun h => hlf (by rw [h3, ← h]; exact List.mem_cons_self)
          rw [hm l (.inl (Under.refl _)) (rep_not_under hbl), h2]
    | _ => simp [Ty.at] at ht
  | opt t =>
    cases a with
    | val =>
      simp [Ty.at] at ht
      subst ht
      rcases hr with ⟨rfl, h2, h3⟩ | ⟨T', rfl, h2, h4⟩
      · refine ⟨fun e h => ?_, fun T1 h => by simp [Tree.get] at h⟩
        simp [Tree.get] at h
        subst h
        simp only [locate, load_ok hl h2, bind, Except.bind]
      · refine ⟨fun e h => by simp [Tree.get] at h, fun T1 h => ?_⟩
        simp [Tree.get] at h
        subst h
        refine ⟨l.sub .val, f, [], by simp only [locate, load_ok hl h2, bind, Except.bind], by simp, h4, .inl (under_sub _ _), fun m2 X g' hm hX =>
          ⟨g', by simp, .inr ⟨X, by simp [Tree.set], ?_, hX⟩⟩⟩
        rw [hm l (.inl (Under.refl _)) (not_under_sub _ _), h2]
    | _ => simp [Ty.at] at ht
  | pair x y =>
    obtain ⟨A, B, g, h, rfl, e2, e3, e4⟩ := hr
    have hl1 : ∀ {k : Loc}, k.blk ∈ g → k.blk ≠ l.blk := fun hk he => hlf (by rw [e2, ← he]; exact List.mem_append_left _ hk)
    have hl2 : ∀ {k : Loc}, k.blk ∈ h → k.blk ≠ l.blk := fun hk he => hlf (by rw [e2, ← he]; exact List.mem_append_right _ hk)
    cases a with
    | fst =>
      simp [Ty.at] at ht
      subst ht
      refine ⟨fun e h => by simp [Tree.get] at h, fun T1 hT => ?_⟩
      simp [Tree.get] at hT
      subst hT
      refine ⟨l.sub .fst, g, h, rfl, by rw [e2], e3, .inl (under_sub _ _), fun m2 X g' hm hX => ⟨g' ++ h, by simp, ?_⟩⟩
      refine ⟨X, B, g', h, by simp [Tree.set], rfl, hX, rep_frame e4 (fun k hk => hm k (.inl ((under_sub _ _).trans hk)) (sub_disj (by simp) hk))
        (fun k hk => hm k (.inr hk) (fun hu => hl2 hk hu.1))⟩
    | snd =>
      simp [Ty.at] at ht
      subst ht
      refine ⟨fun e h => by simp [Tree.get] at h, fun T1 hT => ?_⟩
      simp [Tree.get] at hT
      subst hT
      refine ⟨l.sub .snd, h, g, rfl, by rw [e2]; exact List.perm_append_comm, e4, .inl (under_sub _ _), fun m2 X g' hm hX =>
        ⟨g ++ g', List.perm_append_comm, ?_⟩⟩
      refine ⟨A, X, g, g', by simp [Tree.set], rfl, rep_frame e3 (fun k hk => hm k (.inl ((under_sub _ _).trans hk)) (sub_disj (by simp) hk))
        (fun k hk => hm k (.inr hk) (fun hu => hl1 hk hu.1)), hX⟩
    | _ => simp [Ty.at] at ht

/-- Two children of an object. -/
theorem step_foc2 {m : Mem} {t t1 t2 : Ty} {l : Loc} {T T1 T2 : Tree} {f : List Nat} {a a' : Acc} (hr : Rep m.obj t l T f) (hn : f.Nodup)
    (hlf : l.blk ∉ f) (hl : l.blk ∈ m.live) (ht : t.at [a] = some t1) (ht' : t.at [a'] = some t2) (hne : a ≠ a') (hT1 : T.get [a] = .ok T1)
    (hT2 : T.get [a'] = .ok T2) :
    ∃ K1 K2 f1 f2 C, locate m l [a] = .ok K1 ∧ locate m l [a'] = .ok K2 ∧
      Foc2 (fun m T f => Rep m t l T f) (Under l) m.obj f t1 K1 T1 f1 t2 K2 T2 f2 C (fun X Y => Tree.set X (Tree.set Y T [a']) [a]) := by
  cases t with
  | num => cases a <;> simp [Ty.at] at ht
  | vec t =>
    cases a with
    | idx i =>
      cases a' with
      | idx j =>
        simp [Ty.at] at ht ht'
        subst ht ht'
        have hij : i ≠ j := fun e => hne (by rw [e])
        obtain ⟨ts, d, cap, rfl, h2, h3, h4⟩ := hr
        simp only [Tree.get] at hT1 hT2
        have hi : i < ts.length := by
          cases e : ts[i]? with
          | none => rw [e] at hT1; simp at hT1
          | some V => exact (List.getElem?_eq_some_iff.1 e).1
        have hj : j < ts.length := by
          cases e : ts[j]? with
          | none => rw [e] at hT2; simp at hT2
          | some V => exact (List.getElem?_eq_some_iff.1 e).1
        have hiv : ts[i]? = some ts[i] := List.getElem?_eq_getElem hi
        have hjv : ts[j]? = some ts[j] := List.getElem?_eq_getElem hj
        rw [hiv] at hT1
        rw [hjv] at hT2
        cases hT1
        cases hT2
        rcases h4 with ⟨_, e2, _⟩ | ⟨b, F, e1, e2, e3, e4⟩
        · omega
        subst e1
        have hn' := hn
        rw [e3, List.nodup_cons] at hn'
        have hbl : b ≠ l.blk := fun h => hlf (by rw [e3, ← h]; exact List.mem_cons_self)
        refine ⟨⟨b, [.elem i]⟩, ⟨b, [.elem j]⟩, F i, F j, b :: (List.range' 0 ts.length).flatMap (upd (upd F j []) i []), ?_, ?_, ?_, e4 i _ hiv,
          e4 j _ hjv, .inr List.mem_cons_self, .inr List.mem_cons_self, elem_ne hij, elem_ne (Ne.symm hij), ?_⟩
        · simp only [locate, load_ok hl h2, bind, Except.bind, if_pos hi, elemAt]
        · simp only [locate, load_ok hl h2, bind, Except.bind, if_pos hj, elemAt]
        · have hF : upd (upd F j (F j)) i (F i) = F := by rw [upd_self, upd_self]
          have := flat_two (F := F) (x := F i) (y := F j) hi hj hij
          rw [hF] at this
          rw [e3, List.perm_iff_count]
          intro z
          have c := this.count_eq z
          simp only [List.count_append, List.count_cons] at c ⊢
          omega
        · intro m2 X Y g1 g2 hm hX hY
          refine ⟨b :: (List.range' 0 ts.length).flatMap (upd (upd F j g2) i g1), ?_, ?_⟩
          · rw [List.perm_iff_count]
            intro z
            have c := (flat_two (F := F) (x := g1) (y := g2) hi hj hij).count_eq z
            simp only [List.count_append, List.count_cons] at c ⊢
            omega
          · have hs : Tree.set X (Tree.set Y (.vec ts) [.idx j]) [.idx i] = .vec ((ts.set j Y).set i X) := by
              simp [Tree.set, hjv, List.getElem?_set_ne (Ne.symm hij), hiv]
            show Rep m2 (.vec t) l (Tree.set X (Tree.set Y (.vec ts) [.idx j]) [.idx i]) _
            rw [hs]
            refine ⟨(ts.set j Y).set i X, some b, cap, rfl, ?_, by simpa using h3, .inr ⟨b, upd (upd F j g2) i g1, rfl, e2, by simp, fun k U hk => ?_⟩⟩
            · rw [hm l (.inl (Under.refl _)) (rep_not_under hbl) (rep_not_under hbl), h2, List.length_set, List.length_set]
            · by_cases hki : k = i
              · subst hki
                rw [List.getElem?_set_self (by simpa using hi)] at hk
                cases hk
                simpa [upd] using hX
              · rw [List.getElem?_set_ne (Ne.symm hki)] at hk
                by_cases hkj : k = j
                · subst hkj
                  rw [List.getElem?_set_self hj] at hk
                  cases hk
                  simpa [upd, hki] using hY
                · rw [List.getElem?_set_ne (Ne.symm hkj)] at hk
                  have hkl := (List.getElem?_eq_some_iff.1 hk).1
                  have hu : ∀ x y, upd (upd F j x) i y k = F k := fun x y => by unfold upd; rw [if_neg hki, if_neg hkj]
                  rw [hu]
                  have hb : ∀ {q : Loc} {s : Nat}, q.blk ∈ F k → ¬ Under ⟨b, [.elem s]⟩ q := fun hq h =>
                    hn'.1 (mem_flat hkl (by have e := h.1; dsimp only at e; exact e ▸ hq))
                  refine rep_frame (e4 k U hk) (fun q hq => hm q (.inr ?_) (elem_disj hki hq) (elem_disj hkj hq)) (fun q hq => hm q (.inr ?_) (hb hq) (hb hq))
                  · rw [hq.1]; exact List.mem_cons_self
                  · exact List.mem_cons_of_mem _ (mem_flat hkl (by rw [hu]; exact hq))
      | _ => simp [Ty.at] at ht'
    | _ => simp [Ty.at] at ht
  | box t => cases a <;> cases a' <;> simp [Ty.at] at ht ht' hne
  | opt t => cases a <;> cases a' <;> simp [Ty.at] at ht ht' hne
  | pair x y =>
    obtain ⟨A, B, g, h, rfl, e2, e3, e4⟩ := hr
    have hsub : ∀ {s s' : Step}, s ≠ s' → ¬ Under (l.sub s) (l.sub s') := fun hs hu => sub_disj hs hu (Under.refl _)
    cases a with
    | fst =>
      cases a' with
      | snd =>
        simp [Ty.at] at ht ht'
        subst ht ht'
        simp [Tree.get] at hT1 hT2
        subst hT1 hT2
        refine ⟨l.sub .fst, l.sub .snd, g, h, [], rfl, rfl, by rw [e2]; simp, e3, e4, .inl (under_sub _ _), .inl (under_sub _ _), hsub (by simp),
          hsub (by simp), fun m2 X Y g1 g2 hm hX hY => ⟨g1 ++ g2, by simp, X, Y, g1, g2, by simp [Tree.set], rfl, hX, hY⟩⟩
      | fst => exact absurd rfl hne
      | _ => simp [Ty.at] at ht'
    | snd =>
      cases a' with
      | fst =>
        simp [Ty.at] at ht ht'
        subst ht ht'
        simp [Tree.get] at hT1 hT2
        subst hT1 hT2
        refine ⟨l.sub .snd, l.sub .fst, h, g, [], rfl, rfl, by rw [e2]; simpa using List.perm_append_comm, e4, e3, .inl (under_sub _ _),
          .inl (under_sub _ _), hsub (by simp),
          hsub (by simp), fun m2 X Y g1 g2 hm hX hY => ⟨g2 ++ g1, by simpa using List.perm_append_comm, Y, X, g2, g1, by simp [Tree.set], rfl, hY, hX⟩⟩
      | snd => exact absurd rfl hne
      | _ => simp [Ty.at] at ht'
    | _ => simp [Ty.at] at ht

/-- A part of an object. -/
theorem path_foc {m : Mem} : ∀ (p : List Acc) {t t' : Ty} {l : Loc} {T : Tree} {f : List Nat}, Rep m.obj t l T f → f.Nodup → l.blk ∉ f →
    l.blk ∈ m.live → (∀ b ∈ f, b ∈ m.live) → t.at p = some t' →
    (∀ e, T.get p = .error e → locate m l p = .error e) ∧
    ∀ T', T.get p = .ok T' → ∃ K f' C, locate m l p = .ok K ∧
      Foc (fun m T f => Rep m t l T f) (Under l) m.obj f t' K T' f' C (fun X => Tree.set X T p)
  | [], t, t', l, T, f, hr, hn, hlf, hl, hlive, ht => by
    have htt : t = t' := by simpa [Ty.at] using ht
    subst htt
    refine ⟨fun e h => by simp [Tree.get] at h, fun T' h => ?_⟩
    have hTT : T = T' := by simpa [Tree.get] using h
    subst hTT
    exact ⟨l, f, [], rfl, by simp, hr, .inl (Under.refl _), fun m2 X g' _ hX => ⟨g', by simp, by simpa [Tree.set] using hX⟩⟩
  | a :: p, t, t', l, T, f, hr, hn, hlf, hl, hlive, ht => by
    rw [at_cons] at ht
    obtain ⟨t1, ht1, ht'⟩ := Option.bind_eq_some_iff.1 ht
    obtain ⟨s1, s2⟩ := step_foc hr hn hlf hl ht1
    rw [locate_cons, get_cons]
    cases hg : T.get [a] with
    | error e =>
      rw [s1 e hg]
      exact ⟨fun e' h => by cases h; rfl, fun T' h => by cases h⟩
    | ok T1 =>
      obtain ⟨K, f1, C, e1, e2⟩ := s2 T1 hg
      have hs := sep_obj hlf hn
      obtain ⟨q1, q2⟩ := e2.sep hs
      have hK : K.blk ∈ m.live := by
        rcases e2.inside with h | h
        · rw [h.1]; exact hl
        · exact hlive _ (e2.perm.mem_iff.2 (List.mem_append_right _ h))
      obtain ⟨i1, i2⟩ := path_foc p e2.rep q2 q1 hK (fun b hb => hlive _ (e2.perm.mem_iff.2 (List.mem_append_left _ hb))) ht'
      rw [e1]
      refine ⟨fun e h => i1 e h, fun T' h => ?_⟩
      obtain ⟨K', f', C', r1, r2⟩ := i2 T' h
      refine ⟨K', f', C' ++ C, r1, ?_⟩
      have := e2.trans hs r2
      have hfun : (fun X => Tree.set X T (a :: p)) = fun X => Tree.set (Tree.set X T1 p) T [a] := funext fun X => set_cons hg
      rw [hfun]
      exact this

/-- Two parts of an object. -/
theorem path_foc2 {m : Mem} : ∀ (p q : List Acc) {t t1 t2 : Ty} {l : Loc} {T T1 T2 : Tree} {f : List Nat}, Rep m.obj t l T f → f.Nodup → l.blk ∉ f →
    l.blk ∈ m.live → (∀ b ∈ f, b ∈ m.live) → t.at p = some t1 → t.at q = some t2 → T.get p = .ok T1 → T.get q = .ok T2 → ¬ p <+: q → ¬ q <+: p →
    ∃ K1 K2 f1 f2 C, locate m l p = .ok K1 ∧ locate m l q = .ok K2 ∧
      Foc2 (fun m T f => Rep m t l T f) (Under l) m.obj f t1 K1 T1 f1 t2 K2 T2 f2 C (fun X Y => Tree.set X (Tree.set Y T q) p)
  | [], q, _, _, _, _, _, _, _, _, _, _, _, _, _, _, _, _, _, h, _ => absurd (List.nil_prefix) h
  | _ :: _, [], _, _, _, _, _, _, _, _, _, _, _, _, _, _, _, _, _, _, h => absurd (List.nil_prefix) h
  | a :: p, a' :: q, t, t1, t2, l, T, T1, T2, f, hr, hn, hlf, hl, hlive, ht1, ht2, hg1, hg2, np, nq => by
    have hs := sep_obj hlf hn
    rw [at_cons] at ht1 ht2
    obtain ⟨s1, hs1, ht1⟩ := Option.bind_eq_some_iff.1 ht1
    obtain ⟨s2, hs2, ht2⟩ := Option.bind_eq_some_iff.1 ht2
    rw [get_cons] at hg1 hg2
    cases hU : T.get [a] with
    | error e => rw [hU] at hg1; cases hg1
    | ok U =>
    cases hU' : T.get [a'] with
    | error e => rw [hU'] at hg2; cases hg2
    | ok U' =>
    rw [hU] at hg1
    rw [hU'] at hg2
    replace hg1 : U.get p = .ok T1 := hg1
    replace hg2 : U'.get q = .ok T2 := hg2
    rw [locate_cons, locate_cons m l a' q]
    by_cases haa : a = a'
    · subst haa
      rw [hU] at hU'
      cases hU'
      rw [hs1] at hs2
      cases hs2
      obtain ⟨K, f1, C, e1, e2⟩ := (step_foc hr hn hlf hl hs1).2 U hU
      obtain ⟨q1, q2⟩ := e2.sep hs
      have hK : K.blk ∈ m.live := by
        rcases e2.inside with h | h
        · rw [h.1]; exact hl
        · exact hlive _ (e2.perm.mem_iff.2 (List.mem_append_right _ h))
      obtain ⟨K1, K2, g1, g2, D, r1, r2, r3⟩ := path_foc2 p q e2.rep q2 q1 hK (fun b hb => hlive _ (e2.perm.mem_iff.2 (List.mem_append_left _ hb)))
        ht1 ht2 hg1 hg2 (fun h => np (by simpa using h)) (fun h => nq (by simpa using h))
      rw [e1]
      refine ⟨K1, K2, g1, g2, D ++ C, r1, r2, ?_⟩
      have := e2.trans2 hs r3
      have hfun : (fun X Y => Tree.set X (Tree.set Y T (a :: q)) (a :: p)) = fun X Y => Tree.set (Tree.set X (Tree.set Y U q) p) T [a] := by
        funext X Y
        rw [set_cons (T := T) hU, set_cons (get_set hU), set_set hU]
      rw [hfun]
      exact this
    · obtain ⟨K1, K2, f1, f2, C, e1, e2, e3⟩ := step_foc2 hr hn hlf hl hs1 hs2 haa hU hU'
      have hn' := e3.perm.nodup_iff.1 hn
      have hmem1 : ∀ b ∈ f1, b ∈ f := fun b hb => e3.perm.mem_iff.2 (List.mem_append_left _ hb)
      have hmem2 : ∀ b ∈ f2, b ∈ f := fun b hb => e3.perm.mem_iff.2 (List.mem_append_right _ (List.mem_append_left _ hb))
      have hlK : ∀ {K : Loc}, (Under l K ∨ K.blk ∈ C) → K.blk ∈ m.live := by
        rintro K (h | h)
        · rw [h.1]; exact hl
        · exact hlive _ (e3.perm.mem_iff.2 (List.mem_append_right _ (List.mem_append_right _ h)))
      have k1 : K1.blk ∉ f1 := by
        rcases e3.inside1 with h | h
        · exact fun hh => hs.dis _ h (hmem1 _ hh)
        · exact fun hh => nodup_dis hn' hh (List.mem_append_right _ h)
      have k2 : K2.blk ∉ f2 := by
        rcases e3.inside2 with h | h
        · exact fun hh => hs.dis _ h (hmem2 _ hh)
        · exact fun hh => nodup_dis (List.nodup_append.1 hn').2.1 hh h
      obtain ⟨L1, g1, D1, r1, r2⟩ := (path_foc p e3.rep1 (List.nodup_append.1 hn').1 k1 (hlK e3.inside1) (fun b hb => hlive _ (hmem1 b hb)) ht1).2 T1 hg1
      obtain ⟨L2, g2, D2, r3, r4⟩ := (path_foc q e3.rep2 (List.nodup_append.1 (List.nodup_append.1 hn').2.1).1 k2 (hlK e3.inside2)
        (fun b hb => hlive _ (hmem2 b hb)) ht2).2 T2 hg2
      rw [e1, e2]
      refine ⟨L1, L2, g1, g2, D1 ++ (D2 ++ C), r1, r3, ?_⟩
      have := e3.trans hs r2 r4
      have hfun : (fun X Y => Tree.set X (Tree.set Y T (a' :: q)) (a :: p)) =
          fun X Y => Tree.set (Tree.set X U p) (Tree.set (Tree.set Y U' q) T [a']) [a] := by
        funext X Y
        rw [set_cons (T := T) hU', set_cons (get_set_ne haa hU hU')]
      rw [hfun]
      exact this

end Rpp.Nested
