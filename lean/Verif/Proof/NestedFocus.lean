import Verif.Proof.NestedOps

/-!
# Proofs: parts of nested containers

An object is a part of it and a context: what the part owns and what the rest owns are disjoint, and another value in place of the part
gives another value of the whole. The same for two parts.
-/

namespace Rpp.Nested
open Rpp

/-- Contents of memory. -/
abbrev World := Loc → Option Flat

/-- The storage `own` of a whole has nothing to do with the blocks that it owns. -/
structure Sep (own : Loc → Prop) (f : List Nat) : Prop where
  closed : ∀ a b, own a → Under a b → own b
  dis : ∀ k, own k → k.blk ∉ f
  nodup : f.Nodup

/-- The part `K` of a whole that owns `f`: the part owns `f'` and the rest `C`. -/
structure Foc {V : Type} (W : World → V → List Nat → Prop) (own : Loc → Prop) (m : World) (f : List Nat) (t : Ty) (K : Loc) (T : Tree)
    (f' C : List Nat) (S : Tree → V) : Prop where
  perm : f.Perm (f' ++ C)
  rep : Rep m t K T f'
  inside : own K ∨ K.blk ∈ C
  back : ∀ m2 X g', (∀ k, (own k ∨ k.blk ∈ C) → ¬ Under K k → m2 k = m k) → Rep m2 t K X g' → ∃ g, g.Perm (g' ++ C) ∧ W m2 (S X) g

/-- Two parts. -/
structure Foc2 {V : Type} (W : World → V → List Nat → Prop) (own : Loc → Prop) (m : World) (f : List Nat) (t1 : Ty) (K1 : Loc) (T1 : Tree)
    (f1 : List Nat) (t2 : Ty) (K2 : Loc) (T2 : Tree) (f2 C : List Nat) (S : Tree → Tree → V) : Prop where
  perm : f.Perm (f1 ++ (f2 ++ C))
  rep1 : Rep m t1 K1 T1 f1
  rep2 : Rep m t2 K2 T2 f2
  inside1 : own K1 ∨ K1.blk ∈ C
  inside2 : own K2 ∨ K2.blk ∈ C
  apart1 : ¬ Under K1 K2
  apart2 : ¬ Under K2 K1
  back : ∀ m2 X1 X2 g1 g2, (∀ k, (own k ∨ k.blk ∈ C) → ¬ Under K1 k → ¬ Under K2 k → m2 k = m k) → Rep m2 t1 K1 X1 g1 → Rep m2 t2 K2 X2 g2 →
    ∃ g, g.Perm (g1 ++ (g2 ++ C)) ∧ W m2 (S X1 X2) g

theorem sep_obj {l : Loc} {f : List Nat} (h : l.blk ∉ f) (hn : f.Nodup) : Sep (Under l) f :=
  ⟨fun _ _ h1 h2 => h1.trans h2, fun k hk => by rw [hk.1]; exact h, hn⟩

section compose
variable {V : Type} {W : World → V → List Nat → Prop} {own : Loc → Prop} {m : World} {f : List Nat}

theorem Foc.sep {t : Ty} {K : Loc} {T : Tree} {f' C : List Nat} {S : Tree → V} (h : Foc W own m f t K T f' C S) (hs : Sep own f) :
    K.blk ∉ f' ∧ f'.Nodup := by
  have hn := h.perm.nodup_iff.1 hs.nodup
  refine ⟨fun hk => ?_, (List.nodup_append.1 hn).1⟩
  rcases h.inside with ho | hC
  · exact hs.dis K ho (h.perm.mem_iff.2 (List.mem_append_left _ hk))
  · exact nodup_dis hn hk hC

theorem Foc.apart {t : Ty} {K : Loc} {T : Tree} {f' C : List Nat} {S : Tree → V} (h : Foc W own m f t K T f' C S) (hs : Sep own f) {k : Loc}
    (hk : own k ∨ k.blk ∈ C) : k.blk ∉ f' := by
  have hn := h.perm.nodup_iff.1 hs.nodup
  intro hf
  rcases hk with ho | hC
  · exact hs.dis k ho (h.perm.mem_iff.2 (List.mem_append_left _ hf))
  · exact nodup_dis hn hf hC

/-- What is part of a part is in the storage of the whole. -/
theorem region_sub (hs : ∀ a b, own a → Under a b → own b) {K k : Loc} {C : List Nat} (h : own K ∨ K.blk ∈ C) (hk : Under K k) : own k ∨ k.blk ∈ C := by
  rcases h with h | h
  · exact .inl (hs _ _ h hk)
  · exact .inr (by rw [hk.1]; exact h)

/-- A part of a part. -/
theorem Foc.trans {t1 t2 : Ty} {K1 K2 : Loc} {T1 T2 : Tree} {f1 f2 C1 C2 : List Nat} {S1 : Tree → V} {S2 : Tree → Tree} (hs : Sep own f)
    (h1 : Foc W own m f t1 K1 T1 f1 C1 S1) (h2 : Foc (fun m T f => Rep m t1 K1 T f) (Under K1) m f1 t2 K2 T2 f2 C2 S2) :
    Foc W own m f t2 K2 T2 f2 (C2 ++ C1) (fun X => S1 (S2 X)) := by
  refine ⟨?_, h2.rep, ?_, fun m2 X g' hm hr => ?_⟩
  · rw [← List.append_assoc]
    exact h1.perm.trans (List.Perm.append_right _ h2.perm)
  · rcases h2.inside with h | h
    · exact (region_sub hs.closed h1.inside h).imp id (List.mem_append_right _)
    · exact .inr (List.mem_append_left _ h)
  · have hin : ∀ {k}, (Under K1 k ∨ k.blk ∈ C2) → own k ∨ k.blk ∈ C2 ++ C1 := by
      rintro k (hk | hk)
      · exact (region_sub hs.closed h1.inside hk).imp id (List.mem_append_right _)
      · exact .inr (List.mem_append_left _ hk)
    have hout : ∀ {k}, (own k ∨ k.blk ∈ C1) → ¬ Under K1 k → ¬ Under K2 k := by
      intro k hk hu hk2
      rcases h2.inside with h | h
      · exact hu (h.trans hk2)
      · exact h1.apart hs hk (h2.perm.mem_iff.2 (List.mem_append_right _ (by rw [hk2.1]; exact h)))
    obtain ⟨g, e1, e2⟩ := h2.back m2 X g' (fun k hk hu => hm k (hin hk) hu) hr
    obtain ⟨g2, r1, r2⟩ := h1.back m2 (S2 X) g (fun k hk hu => hm k (hk.imp id (List.mem_append_right _)) (hout hk hu)) e2
    exact ⟨g2, r1.trans (by rw [← List.append_assoc]; exact List.Perm.append_right _ e1), r2⟩

/-- Two parts of a part. -/
theorem Foc.trans2 {t0 t1 t2 : Ty} {K0 K1 K2 : Loc} {T0 T1 T2 : Tree} {f0 f1 f2 C0 C : List Nat} {S0 : Tree → V} {S : Tree → Tree → Tree}
    (hs : Sep own f) (h0 : Foc W own m f t0 K0 T0 f0 C0 S0)
    (h : Foc2 (fun m T f => Rep m t0 K0 T f) (Under K0) m f0 t1 K1 T1 f1 t2 K2 T2 f2 C S) :
    Foc2 W own m f t1 K1 T1 f1 t2 K2 T2 f2 (C ++ C0) (fun X Y => S0 (S X Y)) := by
  have hin : ∀ {K}, (Under K0 K ∨ K.blk ∈ C) → own K ∨ K.blk ∈ C ++ C0 := by
    rintro K (h | h)
    · exact (region_sub hs.closed h0.inside h).imp id (List.mem_append_right _)
    · exact .inr (List.mem_append_left _ h)
  have hout : ∀ {K k}, (Under K0 K ∨ K.blk ∈ C) → (own k ∨ k.blk ∈ C0) → ¬ Under K0 k → ¬ Under K k := by
    rintro K k (h' | h') hk hu hk2
    · exact hu (h'.trans hk2)
    · exact h0.apart hs hk (h.perm.mem_iff.2 (List.mem_append_right _ (List.mem_append_right _ (by rw [hk2.1]; exact h'))))
  refine ⟨?_, h.rep1, h.rep2, hin h.inside1, hin h.inside2, h.apart1, h.apart2, fun m2 X1 X2 g1 g2 hm r1 r2 => ?_⟩
  · refine h0.perm.trans ((List.Perm.append_right _ h.perm).trans ?_)
    simp [List.append_assoc]
  · obtain ⟨g, e1, e2⟩ := h.back m2 X1 X2 g1 g2 (fun k hk => hm k (hin hk)) r1 r2
    obtain ⟨g', q1, q2⟩ := h0.back m2 (S X1 X2) g (fun k hk hu => hm k (hk.imp id (List.mem_append_right _)) (hout h.inside1 hk hu)
      (hout h.inside2 hk hu)) e2
    refine ⟨g', q1.trans ((List.Perm.append_right _ e1).trans ?_), q2⟩
    simp [List.append_assoc]

/-- Parts of two parts. -/
theorem Foc2.trans {t1 t2 s1 s2 : Ty} {K1 K2 L1 L2 : Loc} {T1 T2 U1 U2 : Tree} {f1 f2 C f1' f2' C1 C2 : List Nat} {S : Tree → Tree → V}
    {S1 S2 : Tree → Tree} (hs : Sep own f) (h : Foc2 W own m f t1 K1 T1 f1 t2 K2 T2 f2 C S)
    (h1 : Foc (fun m T f => Rep m t1 K1 T f) (Under K1) m f1 s1 L1 U1 f1' C1 S1)
    (h2 : Foc (fun m T f => Rep m t2 K2 T f) (Under K2) m f2 s2 L2 U2 f2' C2 S2) :
    Foc2 W own m f s1 L1 U1 f1' s2 L2 U2 f2' (C1 ++ (C2 ++ C)) (fun X Y => S (S1 X) (S2 Y)) := by
  have hn := h.perm.nodup_iff.1 hs.nodup
  have hd1 : ∀ {k : Loc}, (own k ∨ k.blk ∈ C) → k.blk ∉ f1 ∧ k.blk ∉ f2 := by
    rintro k (hk | hk)
    · exact ⟨fun hh => hs.dis k hk (h.perm.mem_iff.2 (List.mem_append_left _ hh)),
        fun hh => hs.dis k hk (h.perm.mem_iff.2 (List.mem_append_right _ (List.mem_append_left _ hh)))⟩
    · exact ⟨fun hh => nodup_dis hn hh (List.mem_append_right _ hk), fun hh => nodup_dis (List.nodup_append.1 hn).2.1 hh hk⟩
  have h12 : ∀ {x}, x ∈ f1 → x ∉ f2 := fun a b => nodup_dis hn a (List.mem_append_left _ b)
  have c1 : ∀ {x}, x ∈ C1 → x ∈ f1 := fun hx => h1.perm.mem_iff.2 (List.mem_append_right _ hx)
  have c2 : ∀ {x}, x ∈ C2 → x ∈ f2 := fun hx => h2.perm.mem_iff.2 (List.mem_append_right _ hx)
  have in1 : ∀ {K}, (Under K1 K ∨ K.blk ∈ C1) → own K ∨ K.blk ∈ C1 ++ (C2 ++ C) := by
    rintro K (h' | h')
    · exact (region_sub hs.closed h.inside1 h').imp id (fun q => List.mem_append_right _ (List.mem_append_right _ q))
    · exact .inr (List.mem_append_left _ h')
  have in2 : ∀ {K}, (Under K2 K ∨ K.blk ∈ C2) → own K ∨ K.blk ∈ C1 ++ (C2 ++ C) := by
    rintro K (h' | h')
    · exact (region_sub hs.closed h.inside2 h').imp id (fun q => List.mem_append_right _ (List.mem_append_right _ q))
    · exact .inr (List.mem_append_right _ (List.mem_append_left _ h'))
  -- Nothing is in the storage of both parts.
  have sep : ∀ {k}, (Under K1 k ∨ k.blk ∈ f1) → (Under K2 k ∨ k.blk ∈ f2) → False := by
    rintro k (a | a) (b | b)
    · exact not_under_both h.apart1 h.apart2 a b
    · exact (hd1 h.inside1).2 (by rw [← a.1]; exact b)
    · exact (hd1 h.inside2).1 (by rw [← b.1]; exact a)
    · exact h12 a b
  have up1 : ∀ {k}, Under L1 k → (Under K1 k ∨ k.blk ∈ f1) := fun {k} hk => h1.inside.elim (fun q => .inl (q.trans hk)) (fun q => .inr (by
    rw [hk.1]; exact c1 q))
  have up2 : ∀ {k}, Under L2 k → (Under K2 k ∨ k.blk ∈ f2) := fun {k} hk => h2.inside.elim (fun q => .inl (q.trans hk)) (fun q => .inr (by
    rw [hk.1]; exact c2 q))
  refine ⟨?_, h1.rep, h2.rep, in1 h1.inside, in2 h2.inside, fun hu => sep (up1 hu) (up2 (Under.refl _)), fun hu => sep (up1 (Under.refl _)) (up2 hu),
    fun m2 X1 X2 g1 g2 hm r1 r2 => ?_⟩
  · refine h.perm.trans ?_
    rw [List.perm_iff_count]
    intro z
    have a := h1.perm.count_eq z
    have b := h2.perm.count_eq z
    simp only [List.count_append] at a b ⊢
    omega
  · obtain ⟨q1, a1, b1⟩ := h1.back m2 X1 g1 (fun k hk hu => hm k (in1 hk) hu (fun hu2 => sep (hk.imp id c1) (up2 hu2))) r1
    obtain ⟨q2, a2, b2⟩ := h2.back m2 X2 g2 (fun k hk hu => hm k (in2 hk) (fun hu2 => sep (up1 hu2) (hk.imp id c2)) hu) r2
    obtain ⟨g, a3, b3⟩ := h.back m2 (S1 X1) (S2 X2) q1 q2 (fun k hk u1 u2 => hm k
      (hk.imp id (fun q => List.mem_append_right _ (List.mem_append_right _ q)))
      (fun hu => (up1 hu).elim u1 (hd1 hk).1) (fun hu => (up2 hu).elim u2 (hd1 hk).2)) b1 b2
    refine ⟨g, a3.trans ?_, b3⟩
    rw [List.perm_iff_count]
    intro z
    have a := a1.count_eq z
    have b := a2.count_eq z
    simp only [List.count_append] at a b ⊢
    omega

end compose

/-! ## Values -/

theorem at_cons (t : Ty) (a : Acc) (p : List Acc) : t.at (a :: p) = (t.at [a]).bind (fun s => s.at p) := by
  cases t <;> cases a <;> simp [Ty.at]

theorem get_cons (T : Tree) (a : Acc) (p : List Acc) : T.get (a :: p) = T.get [a] >>= fun U => U.get p := by
  cases T with
  | num n => cases a <;> simp [Tree.get, bind, Except.bind]
  | vec l =>
    cases a with
    | idx i => simp only [Tree.get]; cases l[i]? <;> simp [bind, Except.bind]
    | _ => simp [Tree.get, bind, Except.bind]
  | box o => cases a <;> cases o <;> simp [Tree.get, bind, Except.bind]
  | opt o => cases a <;> cases o <;> simp [Tree.get, bind, Except.bind]
  | pair x y => cases a <;> simp [Tree.get, bind, Except.bind]

theorem set_cons {T U X : Tree} {a : Acc} {p : List Acc} (h : T.get [a] = .ok U) : Tree.set X T (a :: p) = Tree.set (Tree.set X U p) T [a] := by
  cases T with
  | num n => cases a <;> simp [Tree.get] at h
  | vec l =>
    cases a with
    | idx i =>
      simp only [Tree.get] at h
      cases e : l[i]? with
      | none => rw [e] at h; simp at h
      | some V => rw [e] at h; cases h; simp [Tree.set, e]
    | _ => simp [Tree.get] at h
  | box o => cases a <;> cases o <;> simp [Tree.get] at h <;> simp [Tree.set, h]
  | opt o => cases a <;> cases o <;> simp [Tree.get] at h <;> simp [Tree.set, h]
  | pair x y => cases a <;> simp [Tree.get] at h <;> simp [Tree.set, h]

theorem get_set {T U X : Tree} {a : Acc} (h : T.get [a] = .ok U) : (Tree.set X T [a]).get [a] = .ok X := by
  cases T with
  | num n => cases a <;> simp [Tree.get] at h
  | vec l =>
    cases a with
    | idx i =>
      simp only [Tree.get] at h
      cases e : l[i]? with
      | none => rw [e] at h; simp at h
      | some V =>
        have hi := (List.getElem?_eq_some_iff.1 e).1
        simp [Tree.set, e, Tree.get, List.getElem?_set, hi]
    | _ => simp [Tree.get] at h
  | box o => cases a <;> cases o <;> simp [Tree.get] at h <;> simp [Tree.set, Tree.get]
  | opt o => cases a <;> cases o <;> simp [Tree.get] at h <;> simp [Tree.set, Tree.get]
  | pair x y => cases a <;> simp [Tree.get] at h <;> simp [Tree.set, Tree.get]

theorem set_set {T U X Y : Tree} {a : Acc} (h : T.get [a] = .ok U) : Tree.set X (Tree.set Y T [a]) [a] = Tree.set X T [a] := by
  cases T with
  | num n => cases a <;> simp [Tree.get] at h
  | vec l =>
    cases a with
    | idx i =>
      simp only [Tree.get] at h
      cases e : l[i]? with
      | none => rw [e] at h; simp at h
      | some V =>
        have hi := (List.getElem?_eq_some_iff.1 e).1
        simp [Tree.set, e, List.getElem?_set, hi]
    | _ => simp [Tree.get] at h
  | box o => cases a <;> cases o <;> simp [Tree.get] at h <;> simp [Tree.set]
  | opt o => cases a <;> cases o <;> simp [Tree.get] at h <;> simp [Tree.set]
  | pair x y => cases a <;> simp [Tree.get] at h <;> simp [Tree.set]

/-- Another child is not touched. -/
theorem get_set_ne {T U U' Y : Tree} {a a' : Acc} (hne : a ≠ a') (h : T.get [a] = .ok U) (h' : T.get [a'] = .ok U') :
    (Tree.set Y T [a']).get [a] = .ok U := by
  cases T with
  | num n => cases a <;> simp [Tree.get] at h
  | vec l =>
    cases a with
    | idx i =>
      cases a' with
      | idx j =>
        have hij : j ≠ i := fun e => hne (by rw [e])
        simp only [Tree.get] at h h'
        cases e : l[j]? with
        | none => rw [e] at h'; simp at h'
        | some V =>
          simp only [Tree.set, e, Tree.get, List.getElem?_set_ne hij]
          exact h
      | _ => simp [Tree.get] at h'
    | _ => simp [Tree.get] at h
  | box o => cases a <;> cases a' <;> simp [Tree.get] at h h' hne
  | opt o => cases a <;> cases a' <;> simp [Tree.get] at h h' hne
  | pair x y => cases a <;> cases a' <;> simp [Tree.get] at h h' hne <;> simp [Tree.set, Tree.get, h]

theorem locate_cons (m : Mem) (l : Loc) (a : Acc) (p : List Acc) : locate m l (a :: p) = locate m l [a] >>= fun K => locate m K p := by
  cases a with
  | idx i =>
    simp only [locate, bind, Except.bind]
    cases load l m with
    | error e => rfl
    | ok x =>
      cases x with
      | vec d len cap =>
        dsimp only
        by_cases h : i < len
        · rw [if_pos h, if_pos h]
          cases elemAt d i <;> rfl
        · rw [if_neg h, if_neg h]
      | _ => rfl
  | deref =>
    simp only [locate, bind, Except.bind]
    cases load l m with
    | error e => rfl
    | ok x =>
      cases x with
      | box d => cases d <;> rfl
      | _ => rfl
  | val =>
    simp only [locate, bind, Except.bind]
    cases load l m with
    | error e => rfl
    | ok x =>
      cases x with
      | opt d => cases d <;> rfl
      | _ => rfl
  | fst => rfl
  | snd => rfl

end Rpp.Nested
